import Verif.Tool.RunProps
/-!
# C111: what follows from it
-/
namespace Verif.Tool
open Verif Verif.Args JsonDrv Schema

/-! ## Only one thing is done -/

/-- The entries are members of a mutually exclusive group. -/
def excludes (s : St) (n : Bytes) (ks : List (Int32 × VPath)) : Bool :=
  match find s.groups n with
  | none => false
  | some g => g.exclusive && ks.all fun x => decide (x.1 ∈ g.members) && (match s.entry x.1 with
    | none => false
    | some o => hasResult o.cfg.action && decide (o.path = x.2))

/-- The options that say what is done. -/
def actions : List (Int32 × VPath) := [(260, [.key vSet]), (261, [.key vSetFile]), (262, [.key vList]), (263, [.key vLen])]

theorem varsh_excludes : ∀ yaml xml, excludes (varshIn0 yaml xml).st vSet actions = true := by
  intro yaml xml; cases yaml <;> cases xml <;> kernel_refl

theorem excludes_apart {w : World} (hp : 64 ≤ w.p) {fuel : Nat} {cs : List Call} {s t : St} {es : List Event} {rest : List Text} {v : Val}
    (hs : Reached cs s.reg) (ht : tidy s = true) (h : parse w fuel s es rest = some (.returned t v)) {n : Bytes} {ks : List (Int32 × VPath)}
    (he : excludes s n ks = true) {a b : Int32 × VPath} (ha : a ∈ ks) (hb : b ∈ ks) (hab : a.1 ≠ b.1) {x y : Val} :
    ¬ (HasValue v a.2 x ∧ HasValue v b.2 y) := by
  unfold excludes at he
  split at he
  · cases he
  · next g hg =>
    simp only [Bool.and_eq_true, List.all_eq_true, decide_eq_true_eq] at he
    obtain ⟨h1, h2⟩ := he
    obtain ⟨h3, h4⟩ := h2 a ha
    obtain ⟨h5, h6⟩ := h2 b hb
    split at h4
    · cases h4
    · next oa hoa =>
      split at h6
      · cases h6
      · next ob hob =>
        simp only [Bool.and_eq_true, decide_eq_true_eq] at h4 h6
        rw [← h4.2, ← h6.2]
        exact exclusive_partial hp hs (tidy_apart ht) h (find_mem hg) h1 hab h3 h5 hoa hob h4.1 h6.1

/-- C111.  A value is put in from the command line, or from a file, or the keys are listed, or the length is shown:
no two of them, whatever the command line. -/
theorem one_action {w : World} (hp : 64 ≤ w.p) {fuel : Nat} {name : Bytes} {yaml xml : Bool} {P : Parser}
    (hP : varsh w name yaml xml = some P) {es : List Event} {rest : List Text} {t : St} {v : Val}
    (h : parse w fuel P.st es rest = some (.returned t v)) :
    ([(asked es rest w).set.isSome, (asked es rest w).setFile.isSome, (asked es rest w).list, (asked es rest w).length].filter id).length ≤ 1 := by
  rw [varsh_eq] at hP
  cases hP
  obtain ⟨cs, hs⟩ := (varsh_built w name yaml xml).reached
  have ht := varsh_tidy yaml xml
  obtain ⟨hk, _, _, _, e260, e261, _, _, f262, f263, _⟩ := varsh_entries yaml xml
  have hx := varsh_excludes yaml xml
  have hset := stored hp hs ht hk h rfl (fun _ => rfl) e260
  have hsf := stored hp hs ht hk h rfl (fun e => by cases e) e261
  have nn : ∀ {t x}, typed w .null t = some x → x ≠ .null := by
    intro t x e hn
    subst hn
    simp only [typed, reading] at e
    unfold nonNull at e
    split at e
    · cases e
    · next hne => exact hne (Option.some.inj e)
  have v1 : (asked es rest w).set.isSome = true → ∃ x, HasValue v [.key vSet] x := by
    intro h1
    obtain ⟨x, h1⟩ := Option.isSome_iff_exists.1 h1
    unfold asked at h1
    dsimp only at h1
    cases hl : (words 260 es).getLast? with
    | none => rw [hl] at h1; cases h1
    | some t =>
      rw [hl] at h1 hset
      exact ⟨x, hset.trans h1, nn h1⟩
  have v2 : (asked es rest w).setFile.isSome = true → ∃ x, HasValue v [.key vSetFile] x := by
    intro h1
    obtain ⟨x, h1⟩ := Option.isSome_iff_exists.1 h1
    unfold asked at h1
    dsimp only at h1
    cases hl : (words 261 es).getLast? with
    | none => rw [hl] at h1; cases h1
    | some t =>
      rw [hl] at hsf
      exact ⟨_, hsf, nofun⟩
  have flag : ∀ {k p}, isFlag (varshIn0 yaml xml).st k p = true → mentioned k es = true → ∃ x, HasValue v p x := by
    intro k p hf hm
    have := flagged hp hs ht h hf
    rw [hm] at this
    cases hg : getPath? v p with
    | none => rw [hg] at this; cases this
    | some y =>
      refine ⟨y, hg, ?_⟩
      rintro rfl
      rw [hg] at this
      cases this
  have v3 : (asked es rest w).list = true → _ := flag f262
  have v4 : (asked es rest w).length = true → _ := flag f263
  have no : ∀ {a b : Int32 × VPath}, a ∈ actions → b ∈ actions → a.1 ≠ b.1 → (∃ x, HasValue v a.2 x) → (∃ x, HasValue v b.2 x) → False := by
    rintro a b ha hb hab ⟨x, hx'⟩ ⟨y, hy⟩
    exact excludes_apart hp hs ht h hx ha hb hab ⟨hx', hy⟩
  have n12 := no (a := (260, [.key vSet])) (b := (261, [.key vSetFile])) (by simp [actions]) (by simp [actions]) (by decide)
  have n13 := no (a := (260, [.key vSet])) (b := (262, [.key vList])) (by simp [actions]) (by simp [actions]) (by decide)
  have n14 := no (a := (260, [.key vSet])) (b := (263, [.key vLen])) (by simp [actions]) (by simp [actions]) (by decide)
  have n23 := no (a := (261, [.key vSetFile])) (b := (262, [.key vList])) (by simp [actions]) (by simp [actions]) (by decide)
  have n24 := no (a := (261, [.key vSetFile])) (b := (263, [.key vLen])) (by simp [actions]) (by simp [actions]) (by decide)
  have n34 := no (a := (262, [.key vList])) (b := (263, [.key vLen])) (by simp [actions]) (by simp [actions]) (by decide)
  dsimp only at n12 n13 n14 n23 n24 n34
  cases b1 : (asked es rest w).set.isSome <;> cases b2 : (asked es rest w).setFile.isSome <;> cases b3 : (asked es rest w).list <;>
    cases b4 : (asked es rest w).length <;> first
    | decide
    | exact (n12 (v1 b1) (v2 b2)).elim
    | exact (n13 (v1 b1) (v3 b3)).elim
    | exact (n14 (v1 b1) (v4 b4)).elim
    | exact (n23 (v2 b2) (v3 b3)).elim
    | exact (n24 (v2 b2) (v4 b4)).elim
    | exact (n34 (v3 b3) (v4 b4)).elim

/-! ## Putting a value in -/

theorem answers_done {f : Option Bytes → Out (Option Bytes)} : ∀ {srcs : List (Option Bytes)}, (answers f srcs).2 = .done →
    ∃ bs : List Bytes, (answers f srcs).1 = bs.flatten ∧ bs.length = srcs.length ∧
      ∀ (i : Nat) b, bs[i]? = some b → ∃ src, srcs[i]? = some src ∧ f src = .ok (some b)
  | [], _ => ⟨[], rfl, rfl, nofun⟩
  | src :: r, h => by
    rw [answers] at h ⊢
    split at h
    · next b hb =>
      obtain ⟨bs, h1, h2, h3⟩ := answers_done (srcs := r) h
      simp only [hb]
      refine ⟨b :: bs, by simp [h1], by simp [h2], fun i b' hi => ?_⟩
      cases i with
      | zero => simp at hi; subst hi; exact ⟨src, rfl, hb⟩
      | succ i => simp at hi; exact h3 i b' hi
    · cases h
    · cases h
    · cases h

/-- What the inputs are: the words that belong to no option, or the standard input. -/
def sourcesOf (L : Lib) (w : World) (rest : List Text) : List (Option Bytes) :=
  if rest = [] then [none] else rest.map fun t => some (named L w t)

theorem bind_ok {α β : Type} {a : Out α} {f : α → Out β} {y : β} (h : (do let x ← a; f x) = .ok y) : ∃ x, a = .ok x ∧ f x = .ok y := by
  cases a with
  | ok x => exact ⟨x, rfl, h⟩
  | throw e => cases h
  | ub => cases h

/-- C111.  If a value and a path are given and varsh ends normally, then for every input the document is written with
the value at the path.  What is elsewhere in the document is as before, but for nulls that fill a list up to an index
in the path. -/
theorem put_in {w : World} (hp : 64 ≤ w.p) {fuel : Nat} {name : Bytes} {yaml xml : Bool} {P : Parser}
    (hP : varsh w name yaml xml = some P) {es : List Event} {rest : List Text} (hes : ∀ e ∈ es, e.id ≠ 279) {t : St} {v : Val}
    (h : parse w fuel P.st es rest = some (.returned t v)) (L : Lib) {x : Val} {p : Bytes} (hx : (asked es rest w).set = some x)
    (hpth : (asked es rest w).path = some p) (hpay : (asked es rest w).payload = false) (hdone : (varshMain L v).ending = .done) :
    ∃ (fi fo : Format) (q : VPath) (bs : List Bytes), inputFormat v = .ok (some fi) ∧ outputFormat v = .ok (some fo) ∧ PathM.parsePath p = .ok q ∧
      (varshMain L v).written = bs.flatten ∧ bs.length = (sourcesOf L w rest).length ∧
      ∀ (i : Nat) b, bs[i]? = some b → ∃ src d0 d d' out, (sourcesOf L w rest)[i]? = some src ∧
        L.read (asked es rest w).payloadIn fi src = .ok d0 ∧ prepared L (asked es rest w) (howOf v fi fo) d0 = .ok d ∧
        L.write false fo d' (howOf v fi fo).sparams = .ok out ∧ b = out ++ [10] ∧ getPath? d' q = some x ∧
        ∀ q', Diverge q q' → getPath? d' q' = getPath? d q' ∨ (getPath? d q' = none ∧ getPath? d' q' = some .null) := by
  obtain ⟨fi, fo, hi, ho, hrun⟩ := does_what_is_asked hp hP hes h L
  have one := one_action hp hP h
  have hsf : (asked es rest w).setFile = none := by
    cases hs : (asked es rest w).setFile with
    | none => rfl
    | some f => rw [hx, hs] at one; simp at one
  have hl : (asked es rest w).list = false := by
    cases hs : (asked es rest w).list with
    | false => rfl
    | true => rw [hx, hsf, hs] at one; simp at one
  have hln : (asked es rest w).length = false := by
    cases hs : (asked es rest w).length with
    | false => rfl
    | true => rw [hx, hsf, hl, hs] at one; simp at one
  have hrun' : varshMain L v = ⟨(asked es rest w).output.map cText, (answers (answer L (asked es rest w) (howOf v fi fo) (some x)) (sourcesOf L w rest)).1,
      (answers (answer L (asked es rest w) (howOf v fi fo) (some x)) (sourcesOf L w rest)).2⟩ := by
    rw [hrun]
    unfold carriedOut
    rw [hsf]
    dsimp only
    rw [hx]
    rfl
  rw [hrun'] at hdone ⊢
  obtain ⟨bs, h1, h2, h3⟩ := answers_done hdone
  -- every answer
  have key : ∀ src b, answer L (asked es rest w) (howOf v fi fo) (some x) src = .ok (some b) → ∃ q d0 d d' out, PathM.parsePath p = .ok q ∧
      L.read (asked es rest w).payloadIn fi src = .ok d0 ∧ prepared L (asked es rest w) (howOf v fi fo) d0 = .ok d ∧
      L.write false fo d' (howOf v fi fo).sparams = .ok out ∧ b = out ++ [10] ∧ setPath d q x = (d', none) := by
    intro src b hb
    unfold answer at hb
    obtain ⟨d0, h4, hb⟩ := bind_ok hb
    obtain ⟨d, h5, hb⟩ := bind_ok hb
    obtain ⟨ok, _, hb⟩ := bind_ok hb
    cases ok with
    | false => cases hb
    | true =>
      rw [if_pos rfl] at hb
      obtain ⟨d', h6, hb⟩ := bind_ok hb
      obtain ⟨b', h7, hb⟩ := bind_ok hb
      cases hb
      unfold shown at h6
      rw [hpth] at h6
      obtain ⟨q, h8, h6⟩ := bind_ok h6
      unfold show_ at h7
      rw [hl, hln, hpay] at h7
      obtain ⟨out, h9, h7⟩ := bind_ok h7
      cases h7
      split at h6
      · next d'' h10 => cases h6; exact ⟨q, d0, d, d', out, h8, h4, h5, h9, rfl, h10⟩
      · cases h6
  have hne : 0 < (sourcesOf L w rest).length := by
    unfold sourcesOf
    split
    · decide
    · next hr => rw [List.length_map]; exact List.length_pos_iff.2 hr
  obtain ⟨b0, hb0⟩ : ∃ b, bs[0]? = some b := by
    rw [← h2] at hne
    exact ⟨bs[0], List.getElem?_eq_getElem hne⟩
  obtain ⟨_, _, ha0⟩ := h3 0 b0 hb0
  obtain ⟨q, _, _, _, _, hq, _⟩ := key _ _ ha0
  refine ⟨fi, fo, q, bs, hi, ho, hq, h1, h2, fun i b hb => ?_⟩
  obtain ⟨src, h4, h5⟩ := h3 i b hb
  obtain ⟨q', d0, d, d', out, h6, h7, h8, h9, h10, h11⟩ := key src b h5
  rw [hq] at h6
  cases h6
  refine ⟨src, d0, d, d', out, h4, h7, h8, h9, h10, ?_, fun q' hd => ?_⟩
  · have := setPath_below h11 []
    simpa [getPath?] using this
  · rcases setPath_frame h11 hd with h12 | ⟨h12, h13, _⟩
    · exact .inl h12
    · exact .inr ⟨h12, h13⟩

/-! ## What does not hold -/

/-- A library whose only document is `{"a": 1}`: a map is written as `m` and other values as their text; files
contain their names. -/
def exLib : Lib where
  read := fun _ _ f => match f with
    | none => .ok (.map [([97], .int 1)])
    | some n => .ok (.str n)
  readAny := fun n => .ok (.str n)
  write := fun _ _ d _ => match d with
    | .map _ => .ok [109]
    | d => Build.asString (fun _ => []) d
  flatten := fun d _ => .ok d
  expand := fun d _ => .ok d
  valid := fun _ s _ => match s with
    | .str [98] => .ok false
    | _ => .ok true
  fltText := fun _ => []

/-- What is written, and how varsh ends, after these options. -/
def outcome (L : Lib) (es : List Event) (rest : List Text) : Option (Bytes × Ending) :=
  match varsh exWorld [] true true with
  | none => none
  | some P => match parse exWorld 1 P.st es rest with
    | some (.returned _ v) => some ((varshMain L v).written, (varshMain L v).ending)
    | _ => none

theorem outcome_eq {L : Lib} {es : List Event} {rest : List Text} {r : Bytes × Ending} (h : outcome L es rest = some r) :
    ∃ P t v, varsh exWorld [] true true = some P ∧ parse exWorld 1 P.st es rest = some (.returned t v) ∧
      (varshMain L v).written = r.1 ∧ (varshMain L v).ending = r.2 := by
  unfold outcome at h
  split at h
  · cases h
  · next P hP =>
    split at h
    · next t v hv => cases h; exact ⟨P, t, v, hP, hv, rfl, rfl⟩
    · cases h

/-- The words "a", "null", "7" and so on. -/
def word (b : Bytes) : Text := ⟨b, false⟩

/-- C111, not true.  A value given on the command line is put in, whatever it is: `--path a --set null` shows the old
value instead. -/
theorem set_null_false : ¬ ∀ (L : Lib) (w : World), 64 ≤ w.p → ∀ (P : Parser) (t : St) (v : Val) (es : List Event) (pt st : Text) (d d' : Val) (q : VPath),
    varsh w [] true true = some P → parse w 1 P.st es [] = some (.returned t v) → words 259 es = [pt] → words 260 es = [st] →
    (∀ f, L.read false f none = .ok d) → PathM.parsePath pt.bytes = .ok q →
    setPath d q (Guess.guess w.fo st.erange st.bytes) = (d', none) → (varshMain L v).ending = .done →
    ∃ f sp out, L.write false f d' sp = .ok out ∧ (varshMain L v).written = out ++ [10] := by
  intro hall
  obtain ⟨P, t, v, hP, hv, h1, h2⟩ := outcome_eq (L := exLib) (es := [⟨259, some (word [97])⟩, ⟨260, some (word [110, 117, 108, 108])⟩]) (rest := [])
    (r := ([49, 10], .done)) (by kernel_refl)
  obtain ⟨f, sp, out, h3, h4⟩ := hall exLib exWorld (by decide) P t v _ _ _ (.map [([97], .int 1)]) (.map [([97], .null)]) [.key [97]] hP hv rfl rfl (fun _ => rfl) (by kernel_refl)
    (by kernel_refl) h2
  cases h3
  rw [h1] at h4
  revert h4; decide

/-- C111, not true.  The file a word names is read: for the word `007` it is the file `7`. -/
theorem file_name_false : ¬ ∀ (L : Lib) (w : World), 64 ≤ w.p → ∀ (P : Parser) (t : St) (v : Val) (n : Text) (d : Val),
    varsh w [] true true = some P → parse w 1 P.st [] [n] = some (.returned t v) → (∀ f, L.read false f (some n.bytes) = .ok d) →
    (varshMain L v).ending = .done → ∃ f sp out, L.write false f d sp = .ok out ∧ (varshMain L v).written = out ++ [10] := by
  intro hall
  obtain ⟨P, t, v, hP, hv, h1, h2⟩ := outcome_eq (L := exLib) (es := []) (rest := [word [48, 48, 55]]) (r := ([55, 10], .done)) (by kernel_refl)
  obtain ⟨f, sp, out, h3, h4⟩ := hall exLib exWorld (by decide) P t v _ (.str [48, 48, 55]) hP hv (fun _ => rfl) h2
  cases h3
  rw [h1] at h4
  revert h4; decide

/-! ## Cases -/

/-- "--path a" shows the value there; "--path a --set 5" the whole document; "--list" its keys; "--length" its size; two
files are read one after the other; a schema that is not met ends the program; and so does a path that is not there. -/
example : outcome exLib [⟨259, some (word [97])⟩] [] = some ([49, 10], .done) ∧
    outcome exLib [⟨259, some (word [97])⟩, ⟨260, some (word [53])⟩] [] = some ([109, 10], .done) ∧
    outcome exLib [⟨262, none⟩] [] = some ([97, 10], .done) ∧ outcome exLib [⟨263, none⟩] [] = some ([49, 10], .done) ∧
    outcome exLib [] [word [120], word [121]] = some ([120, 10, 121, 10], .done) ∧
    outcome exLib [⟨258, some (word [98])⟩] [] = some ([], .failed) ∧
    outcome exLib [⟨259, some (word [98])⟩] [] = some ([], .threw .key) ∧
    outcome exLib [⟨262, none⟩, ⟨263, none⟩] [] = none :=
  ⟨by kernel_refl, by kernel_refl, by kernel_refl, by kernel_refl, by kernel_refl, by kernel_refl, by kernel_refl, by kernel_refl⟩

/-- The hypotheses of `put_in` are met. -/
example : ∃ P t v, varsh exWorld [] true true = some P ∧
    parse exWorld 1 P.st [⟨259, some (word [97])⟩, ⟨260, some (word [53])⟩] [] = some (.returned t v) ∧ (varshMain exLib v).ending = .done := by
  obtain ⟨P, t, v, hP, hv, _, h2⟩ := outcome_eq (L := exLib) (es := [⟨259, some (word [97])⟩, ⟨260, some (word [53])⟩]) (rest := [])
    (r := ([109, 10], .done)) (by kernel_refl)
  exact ⟨P, t, v, hP, hv, h2⟩

example : (asked [⟨259, some (word [97])⟩, ⟨260, some (word [53])⟩] [] exWorld).set = some (.int 5) ∧
    (asked [⟨259, some (word [97])⟩, ⟨260, some (word [53])⟩] [] exWorld).path = some [97] ∧
    (asked [⟨259, some (word [97])⟩, ⟨260, some (word [53])⟩] [] exWorld).payload = false := ⟨by kernel_refl, by kernel_refl, by kernel_refl⟩

end Verif.Tool
