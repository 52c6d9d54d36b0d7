import Verif.Schema.Print
/-!
# C113: what is printed of a validation says everything but which alternative an error is from

Specification: the entries of a result, one for every error, in order, each with the depth it is nested at.
-/

namespace Verif.Schema
open Verif PathM

/-- What is said about one error: a validation error with its two paths and whether results of alternatives follow, or
an error of the schema. -/
inductive Entry where
  | valid (says : Bytes) (data schema : VPath) (tried : Bool)
  | bad (says : Bytes) (schema : VPath)
  deriving DecidableEq

mutual
/-- The entries of an error: its own, then those of its sub errors one deeper. -/
def VErr.entries (n : Nat) : VErr → List (Nat × Entry)
  | .mk m d s subs => (n, .valid m d s !subs.isEmpty) :: subEntries (n + 1) subs
def errEntries (n : Nat) : List VErr → List (Nat × Entry)
  | [] => []
  | e :: es => e.entries n ++ errEntries n es
def subEntries (n : Nat) : List (List VErr × List SErr) → List (Nat × Entry)
  | [] => []
  | r :: rs => errEntries n r.1 ++ r.2.map (fun q => (n, .bad q.says q.schema)) ++ subEntries n rs
end

/-- Every error of a result with its depth. -/
def entries (r : Res) : List (Nat × Entry) := errEntries 0 r.1 ++ r.2.map fun q => (0, .bad q.says q.schema)

/-- The lines of an entry. -/
def Entry.lines : Entry → List Bytes
  | .valid m d s t => [tValidation ++ m, tDataPath ++ pathString d, tSchemaPath ++ pathString s] ++ (if t then [tSubErrors] else [])
  | .bad m s => [tSchema ++ m, tSchemaPath ++ pathString s]

/-- An entry as text: its lines, each behind as many tabs as it is deep. -/
def showEntry (p : Nat × Entry) : Bytes := p.2.lines.flatMap fun t => List.replicate p.1 9 ++ t ++ [10]

theorem show_bad (n : Nat) (q : SErr) : printSErr n q = showEntry (n, .bad q.says q.schema) := by
  simp [printSErr, showEntry, Entry.lines, line]

theorem show_bads (n : Nat) (qs : List SErr) :
    qs.flatMap (printSErr n) = (qs.map fun q => ((n, .bad q.says q.schema) : Nat × Entry)).flatMap showEntry := by
  induction qs with
  | nil => rfl
  | cons q qs ih => simp [ih, show_bad]

mutual
theorem show_err (n : Nat) : (e : VErr) → printErr n e = (e.entries n).flatMap showEntry
  | .mk m d s [] => by simp [printErr, VErr.entries, subEntries, showEntry, Entry.lines, line]
  | .mk m d s (r :: rs) => by
    have h1 := show_errs (n + 1) r.1
    have h2 := show_subs (n + 1) rs
    rw [printErr, VErr.entries, h1, h2, show_bads, subEntries, List.flatMap_cons, List.flatMap_append, List.flatMap_append]
    simp [showEntry, Entry.lines, line]
theorem show_errs (n : Nat) : (es : List VErr) → printErrs n es = (errEntries n es).flatMap showEntry
  | [] => rfl
  | e :: es => by rw [printErrs, errEntries, List.flatMap_append, show_err n e, show_errs n es]
theorem show_subs (n : Nat) : (rs : List (List VErr × List SErr)) → printSubs n rs = (subEntries n rs).flatMap showEntry
  | [] => rfl
  | r :: rs => by
    rw [printSubs, subEntries, List.flatMap_append, List.flatMap_append, show_errs n r.1, show_subs n rs, show_bads]
end

/-- C113.  What is printed is every error, one after the other, nothing else. -/
theorem printed (r : Res) : printRes 0 r = (entries r).flatMap showEntry := by
  rw [printRes, entries, List.flatMap_append, show_errs, show_bads]

/-! ## Reading it again -/

/-- No line ends in the texts of an entry. -/
def Entry.OneLine : Entry → Prop
  | .valid m d s _ => 10 ∉ m ∧ 10 ∉ pathString d ∧ 10 ∉ pathString s
  | .bad m s => 10 ∉ m ∧ 10 ∉ pathString s

/-- Not the path of the empty key alone, which prints as the empty path. -/
def Entry.Named : Entry → Prop
  | .valid _ d s _ => d ≠ [.key []] ∧ s ≠ [.key []]
  | .bad _ s => s ≠ [.key []]

theorem split_line {a b x y : Bytes} (ha : 10 ∉ a) (hb : 10 ∉ b) (h : a ++ 10 :: x = b ++ 10 :: y) : a = b ∧ x = y := by
  induction a generalizing b with
  | nil =>
    cases b with
    | nil => exact ⟨rfl, by simpa using h⟩
    | cons c b => simp only [List.nil_append, List.cons_append, List.cons.injEq] at h; exact absurd h.1 (by rintro rfl; simp at hb)
  | cons c a ih =>
    cases b with
    | nil => simp only [List.nil_append, List.cons_append, List.cons.injEq] at h; exact absurd h.1 (by rintro rfl; simp at ha)
    | cons d b =>
      simp only [List.cons_append, List.cons.injEq] at h
      obtain ⟨e1, e2⟩ := ih (b := b) (by simp at ha; exact ha.2) (by simp at hb; exact hb.2) h.2
      exact ⟨by rw [h.1, e1], e2⟩

theorem split_tabs {n k : Nat} {c d : UInt8} {a b : Bytes} (hc : c ≠ 9) (hd : d ≠ 9)
    (h : List.replicate n 9 ++ c :: a = List.replicate k 9 ++ d :: b) : n = k ∧ c = d ∧ a = b := by
  induction n generalizing k with
  | zero =>
    cases k with
    | zero => simpa using h
    | succ k => simp [List.replicate_succ] at h; exact absurd h.1 hc
  | succ n ih =>
    cases k with
    | zero => simp [List.replicate_succ] at h; exact absurd h.1.symm hd
    | succ k =>
      simp only [List.replicate_succ, List.cons_append, List.cons.injEq, true_and] at h
      obtain ⟨e1, e2⟩ := ih h
      exact ⟨by omega, e2⟩

/-- One line: its depth, its text and the rest. -/
theorem split {n k : Nat} {c d : UInt8} {a b x y : Bytes} (hc : c ≠ 9) (hd : d ≠ 9) (ha : 10 ∉ c :: a) (hb : 10 ∉ d :: b)
    (h : List.replicate n 9 ++ (c :: a) ++ [10] ++ x = List.replicate k 9 ++ (d :: b) ++ [10] ++ y) :
    n = k ∧ c :: a = d :: b ∧ x = y := by
  have rep : ∀ n : Nat, 10 ∉ (List.replicate n 9 : Bytes) := fun n h => by have := List.eq_of_mem_replicate h; revert this; decide
  rw [List.append_assoc (_ ++ _) [10] x, List.append_assoc (_ ++ _) [10] y] at h
  obtain ⟨e1, e2⟩ := split_line (a := List.replicate n 9 ++ c :: a) (b := List.replicate k 9 ++ d :: b)
    (fun h => (List.mem_append.mp h).elim (rep n) ha) (fun h => (List.mem_append.mp h).elim (rep k) hb) h
  obtain ⟨e3, rfl, rfl⟩ := split_tabs hc hd e1
  exact ⟨e3, rfl, e2⟩

theorem path_text {p q : VPath} (hp : p ≠ [.key []]) (hq : q ≠ [.key []]) (h : pathString p = pathString q) : p = q := by
  have last : ∀ {p q : VPath}, p ≠ [.key []] → p.getLast? = some (.key []) → q.getLast? ≠ some (.key []) → pathString p ≠ pathString q := by
    intro p q hp h1 h2 h
    obtain ⟨r, rfl⟩ := List.getLast?_eq_some_iff.1 h1
    have e1 := parsePath_pathString_trailing_empty r
    have e2 := parsePath_pathString q h2
    rw [h, e2] at e1
    cases e1
    cases q with
    | nil => exact hp rfl
    | cons e q =>
      have := congrArg List.length h
      simp [pathString, elemString] at this
  by_cases h1 : p.getLast? = some (.key [])
  · by_cases h2 : q.getLast? = some (.key [])
    · obtain ⟨r, rfl⟩ := List.getLast?_eq_some_iff.1 h1
      obtain ⟨t, rfl⟩ := List.getLast?_eq_some_iff.1 h2
      have e1 := parsePath_pathString_trailing_empty r
      rw [h, parsePath_pathString_trailing_empty t] at e1
      cases e1
      rfl
    · exact absurd h (last hp h1 h2)
  · by_cases h2 : q.getLast? = some (.key [])
    · exact absurd h.symm (last hq h2 h1)
    · exact pathString_injective p q h1 h2 h

/-- Texts that begin alike. -/
theorem behind {t a b : Bytes} (h : t ++ a = t ++ b) : a = b := List.append_cancel_left h

theorem no_end {t a : Bytes} (ht : 10 ∉ t) (ha : 10 ∉ a) : 10 ∉ t ++ a := fun h => (List.mem_append.mp h).elim ht ha

theorem show_valid (n : Nat) (m : Bytes) (d s : VPath) (t : Bool) (x : Bytes) : showEntry (n, .valid m d s t) ++ x =
    List.replicate n 9 ++ (tValidation ++ m) ++ [10] ++ (List.replicate n 9 ++ (tDataPath ++ pathString d) ++ [10] ++
      (List.replicate n 9 ++ (tSchemaPath ++ pathString s) ++ [10] ++ ((if t then List.replicate n 9 ++ tSubErrors ++ [10] else []) ++ x))) := by
  cases t <;> simp [showEntry, Entry.lines]

theorem show_schema (n : Nat) (m : Bytes) (s : VPath) (x : Bytes) : showEntry (n, .bad m s) ++ x =
    List.replicate n 9 ++ (tSchema ++ m) ++ [10] ++ (List.replicate n 9 ++ (tSchemaPath ++ pathString s) ++ [10] ++ x) := by
  simp [showEntry, Entry.lines]

/-- The first line of what follows is not "sub errors:". -/
theorem not_sub {n : Nat} {x : Bytes} {es : List (Nat × Entry)} (hl : ∀ e ∈ es, e.2.OneLine)
    (h : List.replicate n 9 ++ tSubErrors ++ [10] ++ x = es.flatMap showEntry) : False := by
  cases es with
  | nil => simp [tSubErrors] at h
  | cons e es =>
    obtain ⟨k, e⟩ := e
    have ho := hl _ List.mem_cons_self
    cases e with
    | valid m d s t =>
      rw [List.flatMap_cons, show_valid] at h
      obtain ⟨_, e, _⟩ := split (c := 115) (d := 118) (by decide) (by decide) (show 10 ∉ tSubErrors by decide)
        (no_end (show 10 ∉ tValidation by decide) ho.1) h
      cases e
    | bad m s =>
      rw [List.flatMap_cons, show_schema] at h
      obtain ⟨_, e, _⟩ := split (c := 115) (d := 115) (by decide) (by decide) (show 10 ∉ tSubErrors by decide)
        (no_end (show 10 ∉ tSchema by decide) ho.1) h
      cases e

theorem show_nonempty (p : Nat × Entry) (x : Bytes) : showEntry p ++ x ≠ [] := by
  obtain ⟨n, e⟩ := p
  cases e with
  | valid => rw [show_valid]; simp
  | bad => rw [show_schema]; simp

theorem entries_read : ∀ (a b : List (Nat × Entry)), (∀ e ∈ a, e.2.OneLine ∧ e.2.Named) → (∀ e ∈ b, e.2.OneLine ∧ e.2.Named) →
    a.flatMap showEntry = b.flatMap showEntry → a = b := by
  intro a
  induction a with
  | nil =>
    intro b _ _ h
    cases b with
    | nil => rfl
    | cons e b => rw [List.flatMap_cons] at h; exact absurd h.symm (show_nonempty _ _)
  | cons e a ih =>
    intro b ha hb h
    cases b with
    | nil => rw [List.flatMap_cons] at h; exact absurd h (show_nonempty _ _)
    | cons f b =>
      obtain ⟨n, e⟩ := e
      obtain ⟨k, f⟩ := f
      obtain ⟨oa, na⟩ := ha _ List.mem_cons_self
      obtain ⟨ob, nb⟩ := hb _ List.mem_cons_self
      have ra : ∀ e ∈ a, e.2.OneLine ∧ e.2.Named := fun e he => ha e (List.mem_cons_of_mem _ he)
      have rb : ∀ e ∈ b, e.2.OneLine ∧ e.2.Named := fun e he => hb e (List.mem_cons_of_mem _ he)
      rw [List.flatMap_cons, List.flatMap_cons] at h
      cases e with
      | valid m d s t =>
        cases f with
        | valid m' d' s' t' =>
          rw [show_valid, show_valid] at h
          obtain ⟨e0, e1, h1⟩ := split (c := 118) (d := 118) (by decide) (by decide) (no_end (show 10 ∉ tValidation by decide) oa.1)
            (no_end (show 10 ∉ tValidation by decide) ob.1) h
          obtain ⟨_, e2, h2⟩ := split (c := 100) (d := 100) (by decide) (by decide) (no_end (show 10 ∉ tDataPath by decide) oa.2.1)
            (no_end (show 10 ∉ tDataPath by decide) ob.2.1) h1
          obtain ⟨_, e3, h3⟩ := split (c := 115) (d := 115) (by decide) (by decide) (no_end (show 10 ∉ tSchemaPath by decide) oa.2.2)
            (no_end (show 10 ∉ tSchemaPath by decide) ob.2.2) h2
          have e1 : m = m' := behind (t := tValidation) e1
          have e2 : d = d' := path_text na.1 nb.1 (behind (t := tDataPath) e2)
          have e3 : s = s' := path_text na.2 nb.2 (behind (t := tSchemaPath) e3)
          clear h h1 h2
          subst e0 e1 e2 e3
          have ht : t = t' := by
            cases t <;> cases t'
            · rfl
            · exact absurd h3.symm fun h => not_sub (fun e he => (ra e he).1) (by simpa using h)
            · exact absurd h3 fun h => not_sub (fun e he => (rb e he).1) (by simpa using h)
            · rfl
          subst ht
          rw [ih b ra rb (List.append_cancel_left h3)]
        | bad m' s' =>
          rw [show_valid, show_schema] at h
          obtain ⟨_, e1, _⟩ := split (c := 118) (d := 115) (by decide) (by decide) (no_end (show 10 ∉ tValidation by decide) oa.1)
            (no_end (show 10 ∉ tSchema by decide) ob.1) h
          cases e1
      | bad m s =>
        cases f with
        | valid m' d' s' t' =>
          rw [show_valid, show_schema] at h
          obtain ⟨_, e1, _⟩ := split (c := 115) (d := 118) (by decide) (by decide) (no_end (show 10 ∉ tSchema by decide) oa.1)
            (no_end (show 10 ∉ tValidation by decide) ob.1) h
          cases e1
        | bad m' s' =>
          rw [show_schema, show_schema] at h
          obtain ⟨e0, e1, h1⟩ := split (c := 115) (d := 115) (by decide) (by decide) (no_end (show 10 ∉ tSchema by decide) oa.1)
            (no_end (show 10 ∉ tSchema by decide) ob.1) h
          obtain ⟨_, e3, h2⟩ := split (c := 115) (d := 115) (by decide) (by decide) (no_end (show 10 ∉ tSchemaPath by decide) oa.2)
            (no_end (show 10 ∉ tSchemaPath by decide) ob.2) h1
          have e1 : m = m' := behind (t := tSchema) e1
          have e3 : s = s' := path_text na nb (behind (t := tSchemaPath) e3)
          clear h h1
          subst e0 e1 e3
          rw [ih b ra rb h2]

/-- C113.  Two results print alike only if they have the same errors with the same messages and paths in the same order
at the same depths, as long as no text has a line end.  Missing: which alternative an error is from (`alternatives_false`). -/
theorem print_tells_partial (r r' : Res) (h : ∀ e ∈ entries r, e.2.OneLine ∧ e.2.Named) (h' : ∀ e ∈ entries r', e.2.OneLine ∧ e.2.Named)
    (hp : printRes 0 r = printRes 0 r') : entries r = entries r' := by
  rw [printed, printed] at hp
  exact entries_read _ _ h h' hp

/-- "sad" at /a, with an alternative. -/
def exPrint : Res := ([.mk [115, 97, 100] [.key [97]] [.key [98], .index 3] [([.mk [110, 111] [.key [97]] [] []], [⟨[111, 104], [.key [99]]⟩])]], [])

/-- Three errors, the second and third one deeper than the first. -/
example : (entries exPrint).map (·.1) = [0, 1, 1] ∧ ∀ e ∈ entries exPrint, e.2.OneLine ∧ e.2.Named := by
  refine ⟨by decide, ?_⟩
  intro e he
  simp only [exPrint, entries, errEntries, VErr.entries, subEntries, List.map_cons, List.map_nil, List.append_nil, List.nil_append,
    List.cons_append, List.mem_cons, List.not_mem_nil, or_false] at he
  rcases he with rfl | rfl | rfl <;> refine ⟨?_, ?_⟩ <;> simp only [Entry.OneLine, Entry.Named] <;> decide +kernel

/-- C113, false: an error and a schema error print alike from one alternative and from two. -/
theorem alternatives_false : ∃ r r' : Res, printRes 0 r = printRes 0 r' ∧ r.report ≠ r'.report ∧
    ∀ e ∈ entries r, e.2.OneLine ∧ e.2.Named := by
  refine ⟨exPrint, ([.mk [115, 97, 100] [.key [97]] [.key [98], .index 3] [([.mk [110, 111] [.key [97]] [] []], []), ([], [⟨[111, 104], [.key [99]]⟩])]], []),
    by decide +kernel, ?_, ?_⟩
  · intro h
    simp [Res.report, exPrint, notes, VErr.note, notesSubs] at h
  · intro e he
    simp only [exPrint, entries, errEntries, VErr.entries, subEntries, List.map_cons, List.map_nil, List.append_nil, List.nil_append,
      List.cons_append, List.mem_cons, List.not_mem_nil, or_false] at he
    rcases he with rfl | rfl | rfl <;> refine ⟨?_, ?_⟩ <;> simp only [Entry.OneLine, Entry.Named] <;> decide +kernel

/-- C113, false: a key with a line end in it prints as an error that was not reported. -/
theorem line_end_false : ∃ r r' : Res, printRes 0 r = printRes 0 r' ∧ (entries r).length ≠ (entries r').length :=
  ⟨([], [⟨[], [.key ([97, 10] ++ tSchema ++ [120, 10] ++ tSchemaPath), .key [98]]⟩]),
   ([], [⟨[], [.key [97]]⟩, ⟨[120], [.key [98]]⟩]), by decide +kernel, by decide⟩

/-- What is printed of a result says whether there are errors. -/
theorem print_empty (r : Res) : printRes 0 r = [] ↔ r.1 = [] ∧ r.2 = [] := by
  rw [printed]
  constructor
  · intro h
    cases he : entries r with
    | nil =>
      obtain ⟨es, qs⟩ := r
      cases es with
      | cons e es => obtain ⟨m, d, s, subs⟩ := e; simp [entries, errEntries, VErr.entries] at he
      | nil =>
        cases qs with
        | nil => exact ⟨rfl, rfl⟩
        | cons q qs => simp [entries, errEntries] at he
    | cons e es => rw [he, List.flatMap_cons] at h; exact absurd h (show_nonempty _ _)
  · rintro ⟨h1, h2⟩
    simp [entries, h1, h2, errEntries]

/-! ## With Schema/Places -/

/-- `entries`, from a depth on. -/
def resEntries (k : Nat) (r : Res) : List (Nat × Entry) := errEntries k r.1 ++ r.2.map fun q => (k, .bad q.says q.schema)

theorem mem_notes {n : Note} {es : List VErr} (h : n ∈ notes es) : ∃ e ∈ es, e.note = n := by
  induction es with
  | nil => cases h
  | cons e es ih =>
    rw [notes] at h
    rcases List.mem_cons.mp h with rfl | h
    · exact ⟨e, List.mem_cons_self, rfl⟩
    · obtain ⟨e', h1, h2⟩ := ih h
      exact ⟨e', List.mem_cons_of_mem _ h1, h2⟩

theorem mem_subs {r : Report} {rs : List (List VErr × List SErr)} (h : r ∈ notesSubs rs) : ∃ x ∈ rs, Res.report x = r := by
  induction rs with
  | nil => cases h
  | cons e es ih =>
    rw [notesSubs] at h
    rcases List.mem_cons.mp h with rfl | h
    · exact ⟨e, List.mem_cons_self, rfl⟩
    · obtain ⟨e', h1, h2⟩ := ih h
      exact ⟨e', List.mem_cons_of_mem _ h1, h2⟩

theorem entries_sub {k : Nat} {e : VErr} {es : List VErr} {x : Nat × Entry} (he : e ∈ es) (h : x ∈ e.entries k) : x ∈ errEntries k es := by
  induction es with
  | nil => cases he
  | cons f es ih =>
    rw [errEntries, List.mem_append]
    rcases List.mem_cons.mp he with rfl | he
    · exact .inl h
    · exact .inr (ih he)

theorem entries_subs {k : Nat} {r : Res} {rs : List (List VErr × List SErr)} {x : Nat × Entry} (hr : r ∈ rs) (h : x ∈ resEntries k r) :
    x ∈ subEntries k rs := by
  induction rs with
  | nil => cases hr
  | cons f es ih =>
    rw [subEntries, List.mem_append]
    rcases List.mem_cons.mp hr with rfl | hr
    · exact .inl h
    · exact .inr (ih hr)

theorem entries_inside {k : Nat} {r : Res} {n : Note} {r' : Report} (hn : n ∈ r.report.1) (hr : r' ∈ n.subs) :
    ∃ r'' : Res, r''.report = r' ∧ ∀ x ∈ resEntries (k + 1) r'', x ∈ resEntries k r := by
  obtain ⟨⟨m, d, s, subs⟩, he, rfl⟩ := mem_notes hn
  obtain ⟨r'', h1, h2⟩ := mem_subs (rs := subs) (by simpa [VErr.note, Note.subs] using hr)
  refine ⟨r'', h2, fun x hx => List.mem_append.mpr (.inl (entries_sub he ?_))⟩
  rw [VErr.entries]
  exact List.mem_cons_of_mem _ (entries_subs h1 hx)

/-- C113.  Every error reported, at any depth, is printed with its paths. -/
theorem every_error_printed (r : Res) (n : Note) (h : InReport n r.report) : ∃ k m t, (k, .valid m n.data n.schema t) ∈ entries r := by
  suffices H : ∀ k, ∃ k' m t, (k', .valid m n.data n.schema t) ∈ resEntries k r from H 0
  generalize hR : r.report = R at h
  induction h generalizing r with
  | here hn =>
    intro k
    subst hR
    obtain ⟨⟨m, d, s, subs⟩, he, rfl⟩ := mem_notes hn
    exact ⟨k, m, !subs.isEmpty, List.mem_append.mpr (.inl (entries_sub he (by rw [VErr.entries]; exact List.mem_cons_self)))⟩
  | inside hn hr _ ih =>
    intro k
    subst hR
    obtain ⟨r'', h1, h2⟩ := entries_inside (k := k) hn hr
    obtain ⟨k', m, t, h3⟩ := ih r'' h1 (k + 1)
    exact ⟨k', m, t, h2 _ h3⟩

/-- C113.  Every schema error reported, at any depth, is printed with its path. -/
theorem every_schema_error_printed (r : Res) (p : VPath) (h : SInReport p r.report) : ∃ k m, (k, .bad m p) ∈ entries r := by
  suffices H : ∀ k, ∃ k' m, (k', .bad m p) ∈ resEntries k r from H 0
  generalize hR : r.report = R at h
  induction h generalizing r with
  | here hn =>
    intro k
    subst hR
    obtain ⟨q, hq, rfl⟩ := List.mem_map.mp hn
    exact ⟨k, q.says, List.mem_append.mpr (.inr (List.mem_map.mpr ⟨q, hq, rfl⟩))⟩
  | inside hn hr _ ih =>
    intro k
    subst hR
    obtain ⟨r'', h1, h2⟩ := entries_inside (k := k) hn hr
    obtain ⟨k', m, h3⟩ := ih r'' h1 (k + 1)
    exact ⟨k', m, h2 _ h3⟩

/-- An entry is of an error of the report. -/
def Reported (R : Report) : Entry → Prop
  | .valid _ d s _ => ∃ n, InReport n R ∧ n.data = d ∧ n.schema = s
  | .bad _ s => SInReport s R

theorem reported_inside {R R' : Report} {n : Note} (hn : n ∈ R.1) (hr : R' ∈ n.subs) {e : Entry} (h : Reported R' e) : Reported R e := by
  cases e with
  | valid m d s t => obtain ⟨n', h1, h2⟩ := h; exact ⟨n', .inside hn hr h1, h2⟩
  | bad m s => exact .inside hn hr h

mutual
theorem reported_err (k : Nat) (R : Report) : (e : VErr) → e.note ∈ R.1 → ∀ x ∈ e.entries k, Reported R x.2
  | .mk m d s subs, hn, x, hx => by
    rw [VErr.entries] at hx
    rcases List.mem_cons.mp hx with rfl | hx
    · exact ⟨_, .here hn, by simp [VErr.note, Note.data], by simp [VErr.note, Note.schema]⟩
    · exact reported_subs (k + 1) subs (fun r' hr e he => reported_inside hn (by simpa [VErr.note, Note.subs] using hr) he) x hx
theorem reported_errs (k : Nat) (R : Report) : (es : List VErr) → (∀ n ∈ notes es, n ∈ R.1) → ∀ x ∈ errEntries k es, Reported R x.2
  | [], _, x, hx => by cases hx
  | e :: es, hn, x, hx => by
    rw [errEntries] at hx
    rw [notes] at hn
    rcases List.mem_append.mp hx with hx | hx
    · exact reported_err k R e (hn _ List.mem_cons_self) x hx
    · exact reported_errs k R es (fun n h => hn n (List.mem_cons_of_mem _ h)) x hx
theorem reported_subs (k : Nat) {P : Entry → Prop} : (rs : List (List VErr × List SErr)) → (∀ r' ∈ notesSubs rs, ∀ e, Reported r' e → P e) →
    ∀ x ∈ subEntries k rs, P x.2
  | [], _, x, hx => by cases hx
  | r :: rs, hP, x, hx => by
    rw [subEntries] at hx
    rw [notesSubs] at hP
    rcases List.mem_append.mp hx with hx | hx
    · rcases List.mem_append.mp hx with hx | hx
      · exact hP _ List.mem_cons_self _ (reported_errs k (notes r.1, r.2.map (·.schema)) r.1 (fun n h => h) x hx)
      · obtain ⟨q, hq, rfl⟩ := List.mem_map.mp hx
        exact hP _ List.mem_cons_self _ (.here (List.mem_map.mpr ⟨q, hq, rfl⟩))
    · exact reported_subs k rs (fun r' h => hP r' (List.mem_cons_of_mem _ h)) x hx
end

/-- C113.  Nothing is printed that was not reported. -/
theorem only_errors_printed (r : Res) : ∀ x ∈ entries r, Reported r.report x.2 := by
  intro x hx
  rcases List.mem_append.mp hx with hx | hx
  · exact reported_errs 0 _ r.1 (fun n h => h) x hx
  · obtain ⟨q, hq, rfl⟩ := List.mem_map.mp hx
    exact .here (List.mem_map.mpr ⟨q, hq, rfl⟩)

/-- C113 with C112.  Every data path printed after a validation leads to something in the data. -/
theorem printed_data_path {E : Env} {S X : Val} (hX : Neat X) (r : Res) (h : report E S X = some (.ok r.report)) {k : Nat} {m : Bytes}
    {d s : VPath} {t : Bool} (hp : (k, .valid m d s t) ∈ entries r) : ∃ x, getPath? X d = some x := by
  obtain ⟨n, hn, rfl, _⟩ := only_errors_printed r _ hp
  exact data_path hX h hn

end Verif.Schema
