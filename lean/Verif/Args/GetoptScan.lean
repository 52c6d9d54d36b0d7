import Verif.Args.Getopt
import Verif.Args.GetoptSpec
import Verif.Args.ParseShape
/-!
# C108: the scanner reads what the specification says
-/

namespace Verif.Args
open Verif JsonDrv Schema

variable {s : St}

/-- What is needed of the entries. -/
structure Readable (s : St) : Prop where
  mem : ∀ e ∈ s.reg.optionMap, s.entry e.1 = some e.2
  id : ∀ i o, s.entry i = some o → o.id = i
  num : ∀ i o, s.entry i = some o → o.short > 0 → o.short = i
  apart : ∀ i j a b, s.entry i = some a → s.entry j = some b → a.long ≠ [] → a.long = b.long → i = j
  ok : ∀ i o, s.entry i = some o → Writable o

theorem entry_mem {i : Int32} {o : Opt} (h : s.entry i = some o) : (i, o) ∈ s.reg.optionMap := find_mem h

/-! ## Characters -/

theorem char_table : ∀ n : Fin 128, charVal (toChar (Int32.ofInt n)).toUInt8 = Int32.ofInt n := by decide +kernel

theorem char_of {x : Int32} (h1 : x > 0) (h2 : x ≤ 127) : charVal (toChar x).toUInt8 = x := by
  have h3 : (0 : Int) < x.toInt := by have := Int32.lt_iff_toInt_lt.1 h1; simpa using this
  have h4 : x.toInt ≤ 127 := by have := Int32.le_iff_toInt_le.1 h2; simpa using this
  have := char_table ⟨x.toInt.toNat, by omega⟩
  have e : (((⟨x.toInt.toNat, by omega⟩ : Fin 128) : Nat) : Int) = x.toInt := by
    show ((x.toInt.toNat : Nat) : Int) = _
    omega
  rw [e, Int32.ofInt_toInt] at this
  exact this

theorem Writable.char {o : Opt} (h : Writable o) (hs : o.short > 0) : charVal (shortChar o) = o.short := char_of hs (h.short hs).1

theorem Writable.ne {o : Opt} (h : Writable o) (hs : o.short > 0) {c : UInt8} (hc : o.short ≠ charVal c) : shortChar o ≠ c := by
  intro e
  rw [← e, h.char hs] at hc
  exact hc rfl

theorem Writable.chars {o : Opt} (h : Writable o) (hs : o.short > 0) :
    shortChar o ≠ 0 ∧ shortChar o ≠ 43 ∧ shortChar o ≠ 45 ∧ shortChar o ≠ 58 ∧ shortChar o ≠ 59 := by
  obtain ⟨_, h1, h2, h3, h4, _⟩ := h.short hs
  refine ⟨h.ne hs ?_, h.ne hs ?_, h.ne hs ?_, h.ne hs ?_, h.ne hs ?_⟩
  · show o.short ≠ 0
    intro e; rw [e] at hs; exact absurd hs (by decide)
  · exact h1
  · exact h2
  · exact h3
  · exact h4

/-! ## Short options -/

/-- The entry is the short option with this character. -/
def hasChar (c : UInt8) (e : Int32 × Opt) : Bool := decide (e.2.short > 0) && shortChar e.2 == c

theorem shortPart_some {o : Opt} (h : o.short > 0) : shortPart o = shortChar o :: (if hasArg o.cfg.action then [58] else []) := if_pos h
theorem shortPart_none {o : Opt} (h : ¬ o.short > 0) : shortPart o = [] := if_neg h

theorem takeWhile_all {p : UInt8 → Bool} : ∀ {l : Bytes}, (∀ c ∈ l, p c = true) → l.takeWhile p = l
  | [], _ => rfl
  | c :: l, h => by
    rw [List.takeWhile_cons, if_pos (h c List.mem_cons_self), takeWhile_all fun d hd => h d (List.mem_cons_of_mem _ hd)]

theorem takeWhile_mem {p : UInt8 → Bool} : ∀ {l : Bytes} {c : UInt8}, c ∈ l.takeWhile p → p c = true
  | d :: l, c, h => by
    rw [List.takeWhile_cons] at h
    split at h
    · next hd =>
      rcases List.mem_cons.1 h with rfl | h
      · exact hd
      · exact takeWhile_mem h
    · cases h

/-- `shortOpts` -/
def shortTable (m : List (Int32 × Opt)) : Bytes := m.flatMap fun e => shortPart e.2

theorem shortTable_head {m : List (Int32 × Opt)} (h : ∀ e ∈ m, Writable e.2) :
    ∀ c r, shortTable m = c :: r → c ≠ 0 ∧ c ≠ 43 ∧ c ≠ 45 ∧ c ≠ 58 ∧ c ≠ 59 := by
  induction m with
  | nil => exact fun _ _ h => by cases h
  | cons e m ih =>
    intro c r hc
    by_cases hs : e.2.short > 0
    · unfold shortTable at hc
      rw [List.flatMap_cons, shortPart_some hs] at hc
      cases hc
      exact (h e List.mem_cons_self).chars hs
    · unfold shortTable at hc
      rw [List.flatMap_cons, shortPart_none hs] at hc
      exact ih (fun e he => h e (List.mem_cons_of_mem _ he)) c r hc

theorem kindAfter_flag {c : UInt8} {r : Bytes} (h : ∀ x t, r = x :: t → x ≠ 58 ∧ x ≠ 59) : kindAfter c r = .flag := by
  unfold kindAfter
  split
  · exact absurd rfl (h _ _ rfl).1
  · exact absurd rfl (h _ _ rfl).1
  · exact absurd rfl (h _ _ rfl).2
  · rfl

theorem kindAfter_required {c : UInt8} {r : Bytes} (h : ∀ x t, r = x :: t → x ≠ 58) : kindAfter c (58 :: r) = .required := by
  cases r with
  | nil => rfl
  | cons x r =>
    have := h x r rfl
    unfold kindAfter
    split
    · rename_i e; cases e; exact absurd rfl this
    · rfl
    · rename_i e; cases e
    · rename_i h1 h2 _; exact absurd rfl (h2 _)

theorem kindIn_table {m : List (Int32 × Opt)} (h : ∀ e ∈ m, Writable e.2) {c : UInt8} (h1 : c ≠ 58) :
    kindIn (shortTable m) c = match m.find? (hasChar c) with
      | none => .unknown
      | some e => if hasArg e.2.cfg.action then .required else .flag := by
  induction m with
  | nil => rfl
  | cons e m ih =>
    have ih := ih fun e he => h e (List.mem_cons_of_mem _ he)
    have hh := shortTable_head fun e he => h e (List.mem_cons_of_mem _ he)
    unfold shortTable
    rw [List.flatMap_cons, List.find?_cons]
    by_cases hs : e.2.short > 0
    · rw [shortPart_some hs, List.cons_append]
      unfold kindIn
      by_cases hc : shortChar e.2 = c
      · have : hasChar c e = true := by unfold hasChar; simp [hs, hc]
        rw [if_pos hc, this]
        dsimp only
        split
        · exact kindAfter_required fun x t ht => (hh x t ht).2.2.2.1
        · exact kindAfter_flag fun x t ht => (hh x t ht).2.2.2
      · have : hasChar c e = false := by unfold hasChar; simp [hc]
        rw [if_neg hc, this]
        dsimp only
        split
        · show kindIn (58 :: shortTable m) c = _
          unfold kindIn
          rw [if_neg (Ne.symm h1)]
          exact ih
        · exact ih
    · have : hasChar c e = false := by unfold hasChar; simp [hs]
      rw [shortPart_none hs, this]
      exact ih

theorem shortTable_nonzero {m : List (Int32 × Opt)} (h : ∀ e ∈ m, Writable e.2) : ∀ c ∈ shortTable m, c ≠ 0 := by
  intro c hc
  obtain ⟨e, he, h1⟩ := List.mem_flatMap.1 hc
  unfold shortPart at h1
  split at h1
  · next hs =>
    rcases List.mem_cons.1 h1 with e1 | e1
    · rw [e1]; exact ((h e he).chars hs).1
    · split at e1
      · rw [List.mem_singleton.1 e1]; decide
      · cases e1
  · cases h1

theorem tables_shorts {m : List (Int32 × Opt)} (h : ∀ e ∈ m, Writable e.2) : (tables m).shorts = shortTable m :=
  takeWhile_all fun c hc => by simpa using shortTable_nonzero h c hc

theorem ordering_table {m : List (Int32 × Opt)} (h : ∀ e ∈ m, Writable e.2) (posix : Bool) :
    ordering posix (tables m).shorts = (if posix then .require else .permute, shortTable m) := by
  rw [tables_shorts h]
  have hh := shortTable_head h
  unfold ordering
  split
  · next e => exact absurd rfl (hh _ _ e).2.2.1
  · next e => exact absurd rfl (hh _ _ e).2.1
  · rfl

theorem Readable.writable (h : Readable s) : ∀ e ∈ s.reg.optionMap, Writable e.2 := fun e he => h.ok _ _ (h.mem e he)

theorem Readable.sameShort (h : Readable s) {i j : Int32} {o p : Opt} (hi : s.entry i = some o) (hj : s.entry j = some p) (h1 : o.short > 0) (h2 : p.short > 0)
    (e : shortChar o = shortChar p) : i = j ∧ o = p := by
  have a := h.num i o hi h1
  have b := h.num j p hj h2
  have : o.short = p.short := by rw [← (h.ok i o hi).char h1, ← (h.ok j p hj).char h2, e]
  have hij : i = j := by rw [← a, ← b, this]
  subst hij
  rw [hi] at hj
  exact ⟨rfl, Option.some.inj hj⟩

theorem Readable.kind_eq (h : Readable s) {o : Opt} (ho : s.entry o.id = some o) (hs : o.short > 0) :
    kind (shortTable s.reg.optionMap) (shortChar o) = if hasArg o.cfg.action then .required else .flag := by
  obtain ⟨_, _, _, h3, h4⟩ := (h.ok _ _ ho).chars hs
  unfold kind
  rw [if_neg (by simp [h3, h4]), kindIn_table h.writable h3]
  cases hf : s.reg.optionMap.find? (hasChar (shortChar o)) with
  | none =>
    have := List.find?_eq_none.1 hf _ (entry_mem ho)
    unfold hasChar at this
    simp [hs] at this
  | some e =>
    have h1 := List.find?_some hf
    have h2 := h.mem e (List.mem_of_find?_eq_some hf)
    unfold hasChar at h1
    simp only [Bool.and_eq_true, decide_eq_true_eq, beq_iff_eq] at h1
    obtain ⟨_, e2⟩ := h.sameShort h2 ho h1.1 hs h1.2
    dsimp only
    rw [e2]

theorem Readable.kind_inv (h : Readable s) (c : UInt8) :
    kind (shortTable s.reg.optionMap) c = .unknown ∨ ∃ o, s.entry o.id = some o ∧ o.short > 0 ∧ shortChar o = c := by
  unfold kind
  split
  · exact .inl rfl
  · next hc =>
    rw [kindIn_table h.writable (by intro e; exact hc (.inl e))]
    cases hf : s.reg.optionMap.find? (hasChar c) with
    | none => exact .inl rfl
    | some e =>
      have h1 := List.find?_some hf
      have h2 := h.mem e (List.mem_of_find?_eq_some hf)
      unfold hasChar at h1
      simp only [Bool.and_eq_true, decide_eq_true_eq, beq_iff_eq] at h1
      exact .inr ⟨e.2, by rw [h.id _ _ h2]; exact h2, h1.1, h1.2⟩

theorem Readable.charVal (h : Readable s) {o : Opt} (ho : s.entry o.id = some o) (hs : o.short > 0) : charVal (shortChar o) = o.id := by
  rw [(h.ok _ _ ho).char hs]; exact h.num _ _ ho hs

/-- Options without value come first in a word. -/
theorem Readable.cluster_flags (h : Readable s) {os : List Opt} (hos : ∀ o ∈ os, IsFlag s o) (e : Bool) (r : Bytes) :
    cluster (shortTable s.reg.optionMap) e (os.map shortChar ++ r) =
      (mentions os ++ (cluster (shortTable s.reg.optionMap) e r).1, (cluster (shortTable s.reg.optionMap) e r).2) := by
  induction os with
  | nil => rfl
  | cons o os ih =>
    obtain ⟨h1, h2, h3⟩ := hos o List.mem_cons_self
    have ih := ih fun o ho => hos o (List.mem_cons_of_mem _ ho)
    rw [List.map_cons, List.cons_append]
    conv => lhs; unfold cluster
    rw [h.kind_eq h1 h2, h3, if_neg (by decide)]
    dsimp only
    rw [ih, h.charVal h1 h2]
    rfl

theorem Readable.cluster_taker (h : Readable s) {o : Opt} (ho : IsTaker s o) (e : Bool) (v : Bytes) :
    cluster (shortTable s.reg.optionMap) e (shortChar o :: v) = if v = [] then ([], some o.id) else ([⟨o.id, some ⟨v, e⟩⟩], none) := by
  obtain ⟨h1, h2, h3⟩ := ho
  unfold cluster
  rw [h.kind_eq h1 h2, h3, if_pos rfl, h.charVal h1 h2]
  cases v with
  | nil => rfl
  | cons _ _ => rfl

/-- Every word of short options is of one of the forms, or there is something wrong. -/
theorem Readable.cluster_cases (h : Readable s) (e : Bool) : ∀ cs : Bytes,
    wrong ∈ (cluster (shortTable s.reg.optionMap) e cs).1 ∨ (∃ os : List Opt, (∀ o ∈ os, IsFlag s o) ∧ cs = os.map shortChar) ∨
    ∃ (os : List Opt) (o : Opt) (v : Bytes), (∀ o ∈ os, IsFlag s o) ∧ IsTaker s o ∧ cs = os.map shortChar ++ shortChar o :: v
  | [] => .inr (.inl ⟨[], nofun, rfl⟩)
  | c :: cs => by
    rcases h.kind_inv c with hk | ⟨o, h1, h2, rfl⟩
    · left; unfold cluster; rw [hk]; exact List.mem_cons_self
    · cases ha : hasArg o.cfg.action with
      | true => exact .inr (.inr ⟨[], o, cs, nofun, ⟨h1, h2, ha⟩, rfl⟩)
      | false =>
        have hf : ∀ os : List Opt, (∀ o ∈ os, IsFlag s o) → ∀ p ∈ o :: os, IsFlag s p := by
          intro os hos p hp
          rcases List.mem_cons.1 hp with rfl | hp
          · exact ⟨h1, h2, ha⟩
          · exact hos p hp
        rcases h.cluster_cases e cs with hw | ⟨os, hos, rfl⟩ | ⟨os, o', v, hos, ho', rfl⟩
        · left
          unfold cluster
          rw [h.kind_eq h1 h2, ha]
          exact List.mem_cons_of_mem _ hw
        · exact .inr (.inl ⟨o :: os, hf os hos, rfl⟩)
        · exact .inr (.inr ⟨o :: os, o', v, hf os hos, ho', rfl⟩)

/-! ## Long options -/

/-- What one entry is in the table of long options. -/
def longOf (o : Opt) : LongOpt := ⟨o.long, hasArg o.cfg.action, o.id⟩

theorem Readable.longs (h : Readable s) (l : LongOpt) :
    l ∈ (tables s.reg.optionMap).longs ↔ ∃ o, s.entry o.id = some o ∧ o.long ≠ [] ∧ l = longOf o := by
  have hw : ∀ o : Opt, s.entry o.id = some o → o.long.takeWhile (· ≠ 0) = o.long := by
    intro o ho
    refine takeWhile_all fun c hc => ?_
    simp only [ne_eq, decide_eq_true_eq]
    rintro rfl
    exact (h.ok _ _ ho).long.2 hc
  constructor
  · intro hl
    obtain ⟨e, he, hp⟩ := List.mem_flatMap.1 hl
    have h1 := h.mem e he
    have h2 := h.id _ _ h1
    have h3 : s.entry e.2.id = some e.2 := by rw [h2]; exact h1
    unfold longPart at hp
    split at hp
    · next hn =>
      refine ⟨e.2, h3, hn, ?_⟩
      rw [List.mem_singleton.1 hp, hw _ h3]
      unfold longOf
      rw [h2]
    · cases hp
  · rintro ⟨o, ho, hn, rfl⟩
    refine List.mem_flatMap.2 ⟨_, entry_mem ho, ?_⟩
    unfold longPart
    rw [if_pos hn]
    dsimp only
    rw [hw o ho]
    exact List.mem_singleton.2 rfl

theorem Readable.sameLong (h : Readable s) {o p : Opt} (ho : s.entry o.id = some o) (hp : s.entry p.id = some p) (hn : o.long ≠ []) (e : o.long = p.long) : o = p := by
  have := h.apart _ _ _ _ ho hp hn e
  rw [this, hp] at ho
  exact (Option.some.inj ho).symm

theorem Readable.lookup_means (h : Readable s) {n : Bytes} {o : Opt} (hm : Means s n o) : lookupLong (tables s.reg.optionMap).longs n = some (longOf o) := by
  obtain ⟨ho, hn, hm⟩ := hm
  have hl : longOf o ∈ (tables s.reg.optionMap).longs := (h.longs _).2 ⟨o, ho, hn, rfl⟩
  unfold lookupLong
  rcases hm with rfl | ⟨hpre, hother⟩
  · cases hf : (tables s.reg.optionMap).longs.find? fun l => l.name == o.long with
    | none =>
      have := List.find?_eq_none.1 hf _ hl
      simp [longOf] at this
    | some l =>
      have h1 := List.find?_some hf
      obtain ⟨p, hp, hpn, rfl⟩ := (h.longs l).1 (List.mem_of_find?_eq_some hf)
      have : p.long = o.long := by simpa [longOf] using h1
      rw [h.sameLong hp ho hpn this]
  · have hf : ((tables s.reg.optionMap).longs.find? fun l => l.name == n) = none := by
      rw [List.find?_eq_none]
      intro l hl he
      obtain ⟨p, hp, hpn, rfl⟩ := (h.longs l).1 hl
      have e : p.long = n := by simpa [longOf] using he
      exact (hother _ p hp hpn (by rw [e]; exact List.prefix_refl _)).1 e
    rw [hf]
    dsimp only
    have hall : ∀ l ∈ (tables s.reg.optionMap).longs.filter (fun l => n.isPrefixOf l.name), l = longOf o := by
      intro l hl
      obtain ⟨h1, h2⟩ := List.mem_filter.1 hl
      obtain ⟨p, hp, hpn, rfl⟩ := (h.longs l).1 h1
      have h3 : n <+: p.long := List.isPrefixOf_iff_prefix.1 h2
      have := (hother _ p hp hpn h3).2
      rw [this, ho] at hp
      rw [Option.some.inj hp]
    have hin : longOf o ∈ (tables s.reg.optionMap).longs.filter (fun l => n.isPrefixOf l.name) :=
      List.mem_filter.2 ⟨hl, List.isPrefixOf_iff_prefix.2 hpre⟩
    cases hfl : (tables s.reg.optionMap).longs.filter (fun l => n.isPrefixOf l.name) with
    | nil => rw [hfl] at hin; cases hin
    | cons l ls =>
      rw [hfl] at hall
      dsimp only
      have h0 := hall l List.mem_cons_self
      rw [h0, if_pos]
      rw [List.all_eq_true]
      intro l' hl'
      rw [hall l' (List.mem_cons_of_mem _ hl')]
      simp

theorem Readable.lookup_inv (h : Readable s) {n : Bytes} {l : LongOpt} (hl : lookupLong (tables s.reg.optionMap).longs n = some l) :
    ∃ o, Means s n o ∧ l = longOf o := by
  unfold lookupLong at hl
  split at hl
  · next l' hf =>
    cases hl
    have h1 := List.find?_some hf
    obtain ⟨p, hp, hpn, rfl⟩ := (h.longs l).1 (List.mem_of_find?_eq_some hf)
    have : p.long = n := by simpa [longOf] using h1
    exact ⟨p, ⟨hp, hpn, .inl this⟩, rfl⟩
  · next hf =>
    split at hl
    · cases hl
    · next l0 ls hfl =>
      split at hl
      · next hall =>
        cases hl
        have hin : l ∈ (tables s.reg.optionMap).longs.filter (fun l => n.isPrefixOf l.name) := by rw [hfl]; exact List.mem_cons_self
        obtain ⟨h1, h2⟩ := List.mem_filter.1 hin
        obtain ⟨o, ho, hon, rfl⟩ := (h.longs l).1 h1
        refine ⟨o, ⟨ho, hon, .inr ⟨List.isPrefixOf_iff_prefix.1 h2, fun i p hp hpn hpre => ?_⟩⟩, rfl⟩
        have hpi := h.id i p hp
        have hp' : s.entry p.id = some p := by rw [hpi]; exact hp
        have hpl : longOf p ∈ (tables s.reg.optionMap).longs := (h.longs _).2 ⟨p, hp', hpn, rfl⟩
        refine ⟨fun e => ?_, ?_⟩
        · have := List.find?_eq_none.1 hf _ hpl
          simp [longOf, e] at this
        · have hpf : longOf p ∈ (tables s.reg.optionMap).longs.filter (fun l => n.isPrefixOf l.name) :=
            List.mem_filter.2 ⟨hpl, List.isPrefixOf_iff_prefix.2 hpre⟩
          rw [hfl] at hpf
          rcases List.mem_cons.1 hpf with e | e
          · have : p.id = o.id := congrArg LongOpt.val e
            rw [← hpi]; exact this
          · have := List.all_eq_true.1 hall _ e
            simp only [longOf, Bool.and_eq_true, beq_iff_eq] at this
            rw [← hpi]; exact this.2
      · cases hl

/-! ## Words -/

theorem name_of {n r : Bytes} (h : 61 ∉ n) (hr : r = [] ∨ ∃ v, r = 61 :: v) : (n ++ r).takeWhile (· ≠ 61) = n := by
  induction n with
  | nil =>
    rcases hr with rfl | ⟨v, rfl⟩
    · rfl
    · rfl
  | cons c n ih =>
    have hc : c ≠ 61 := fun e => h (by rw [e]; exact List.mem_cons_self)
    have hn : 61 ∉ n := fun e => h (List.mem_cons_of_mem _ e)
    rw [List.cons_append, List.takeWhile_cons, if_pos (by simpa using hc), ih hn]

theorem name_split (r : Bytes) : 61 ∉ r.takeWhile (· ≠ 61) ∧
    (r = r.takeWhile (· ≠ 61) ∨ ∃ v, r = r.takeWhile (· ≠ 61) ++ 61 :: v) := by
  refine ⟨fun h => ?_, ?_⟩
  · have := takeWhile_mem h
    simp at this
  · induction r with
    | nil => exact .inl rfl
    | cons c r ih =>
      by_cases hc : c = 61
      · right; subst hc; exact ⟨r, rfl⟩
      · rw [List.takeWhile_cons, if_pos (by simpa using hc)]
        rcases ih with e | ⟨v, e⟩
        · left; rw [← e]
        · right; exact ⟨v, by rw [List.cons_append, ← e]⟩

theorem longWord_plain {T : List LongOpt} {n : Bytes} (h : 61 ∉ n) {l : LongOpt} (hl : lookupLong T n = some l) (e : Bool) :
    longWord T e n = if l.takes then ([], some l.val) else ([⟨l.val, none⟩], none) := by
  have h1 : n.takeWhile (· ≠ 61) = n := by simpa using name_of (r := []) h (.inl rfl)
  unfold longWord
  dsimp only
  rw [h1, hl]
  simp

theorem longWord_with {T : List LongOpt} {n v : Bytes} (h : 61 ∉ n) {l : LongOpt} (hl : lookupLong T n = some l) (e : Bool) :
    longWord T e (n ++ 61 :: v) = if l.takes then ([⟨l.val, some ⟨v, e⟩⟩], none) else ([wrong], none) := by
  have h1 : (n ++ 61 :: v).takeWhile (· ≠ 61) = n := name_of h (.inr ⟨v, rfl⟩)
  unfold longWord
  dsimp only
  rw [h1, hl]
  simp

/-- The tables after the beginning of `shortOpts` was looked at. -/
def shownTables (s : St) : Tables := ⟨shortTable s.reg.optionMap, (tables s.reg.optionMap).longs⟩

/-- What is done about other words. -/
def orderOf (posix : Bool) : Order := if posix then .require else .permute

theorem Readable.wordsOf_eq (h : Readable s) (posix : Bool) (ws : List Text) :
    wordsOf posix s.reg.optionMap ws = scan (orderOf posix) (shownTables s) none ws := by
  unfold wordsOf
  dsimp only
  rw [ordering_table h.writable]
  rfl

theorem isWord_iff (b : Bytes) : isWord b = true ↔ (b.head? ≠ some 45 ∨ b = [45]) := by
  unfold isWord
  split
  · simp
  · next h =>
    simp only [true_iff]
    cases b with
    | nil => left; simp
    | cons c b =>
      cases b with
      | nil =>
        by_cases e : c = 45
        · right; rw [e]
        · left; simpa using e
      | cons d b =>
        left
        simp only [List.head?_cons, ne_eq, Option.some.injEq]
        rintro rfl
        exact h _ _ rfl

theorem word_not_stop {b : Bytes} (h : isWord b = true) : b ≠ [45, 45] := by rintro rfl; cases h

theorem scan_option {o : Order} {T : Tables} {t : Text} {ws : List Text} (h1 : t.bytes ≠ [45, 45]) (h2 : isWord t.bytes = false) :
    scan o T none (t :: ws) = ((optionWord T t).1 ++ (scan o T (optionWord T t).2 ws).1, (scan o T (optionWord T t).2 ws).2) := by
  conv => lhs; unfold scan
  rw [if_neg h1, if_neg (by rw [h2]; decide)]

theorem optionWord_long {T : Tables} {r : Bytes} {e : Bool} : optionWord T ⟨45 :: 45 :: r, e⟩ = longWord T.longs e r := rfl

theorem optionWord_short {T : Tables} {c : UInt8} {r : Bytes} {e : Bool} (h : c ≠ 45) : optionWord T ⟨45 :: c :: r, e⟩ = cluster T.shorts e (c :: r) := by
  unfold optionWord
  dsimp only
  split
  · next e => cases e; exact absurd rfl h
  · next e => cases e; rfl
  · next h1 h2 => exact absurd rfl (h2 _)

theorem Readable.scan_long (h : Readable s) {posix : Bool} {r : Bytes} {e : Bool} (hr : r ≠ []) (ws : List Text) :
    scan (orderOf posix) (shownTables s) none (⟨45 :: 45 :: r, e⟩ :: ws) =
      ((longWord (shownTables s).longs e r).1 ++ (scan (orderOf posix) (shownTables s) (longWord (shownTables s).longs e r).2 ws).1,
       (scan (orderOf posix) (shownTables s) (longWord (shownTables s).longs e r).2 ws).2) :=
  scan_option (by simpa using hr) rfl

theorem Readable.scan_short (h : Readable s) {posix : Bool} {c : UInt8} {r : Bytes} {e : Bool} (hc : c ≠ 45) (ws : List Text) :
    scan (orderOf posix) (shownTables s) none (⟨45 :: c :: r, e⟩ :: ws) =
      ((cluster (shownTables s).shorts e (c :: r)).1 ++ (scan (orderOf posix) (shownTables s) (cluster (shownTables s).shorts e (c :: r)).2 ws).1,
       (scan (orderOf posix) (shownTables s) (cluster (shownTables s).shorts e (c :: r)).2 ws).2) := by
  rw [scan_option (by intro e; injection e with _ e; injection e with e _; exact hc e) rfl, optionWord_short hc]

theorem IsFlag.notDash (h : Readable s) {o : Opt} (ho : IsFlag s o) : shortChar o ≠ 45 := ((h.ok _ _ ho.1).chars ho.2.1).2.2.1
theorem IsTaker.notDash (h : Readable s) {o : Opt} (ho : IsTaker s o) : shortChar o ≠ 45 := ((h.ok _ _ ho.1).chars ho.2.1).2.2.1

/-- A word of short options, of any of the three forms. -/
theorem Readable.scan_flags (h : Readable s) {posix : Bool} {os : List Opt} (hos : ∀ o ∈ os, IsFlag s o) {r : Bytes} {e : Bool} (hne : os.map shortChar ++ r ≠ [])
    (hr : os = [] → r.head? ≠ some 45) (ws : List Text) :
    scan (orderOf posix) (shownTables s) none (⟨45 :: (os.map shortChar ++ r), e⟩ :: ws) =
      (mentions os ++ ((cluster (shownTables s).shorts e r).1 ++ (scan (orderOf posix) (shownTables s) (cluster (shownTables s).shorts e r).2 ws).1),
       (scan (orderOf posix) (shownTables s) (cluster (shownTables s).shorts e r).2 ws).2) := by
  have hcl := h.cluster_flags hos e r
  cases hb : os.map shortChar ++ r with
  | nil => exact absurd hb hne
  | cons c b =>
    have hc : c ≠ 45 := by
      cases os with
      | nil =>
        rw [List.map_nil, List.nil_append] at hb
        rw [hb] at hr
        rintro rfl
        exact hr rfl rfl
      | cons o os =>
        rw [List.map_cons, List.cons_append] at hb
        injection hb with hb _
        rw [← hb]
        exact (hos o List.mem_cons_self).notDash h
    rw [h.scan_short hc, ← hb, show (shownTables s).shorts = shortTable s.reg.optionMap from rfl, hcl]
    simp only [List.append_assoc]

/-- What can be read is what the scanner finds. -/
theorem Readable.complete (h : Readable s) {posix : Bool} {ws rest : List Text} {es : List Event} (hr : Reads posix s ws es rest) :
    scan (orderOf posix) (shownTables s) none ws = (es, rest) := by
  induction hr with
  | done => rfl
  | stop => unfold scan; rw [if_pos rfl]
  | word hp hw _ ih =>
    have hw := (isWord_iff _).2 hw
    unfold scan
    rw [if_neg (word_not_stop hw), if_pos hw, hp, show orderOf false = .permute from rfl]
    rw [hp, show orderOf false = .permute from rfl] at ih
    dsimp only
    rw [ih]
  | words hp hw =>
    have hw := (isWord_iff _).2 hw
    unfold scan
    rw [if_neg (word_not_stop hw), if_pos hw, hp, show orderOf true = .require from rfl]
  | @long n e o ws rest es hn hq hm ha _ ih =>
    rw [h.scan_long hn, show (shownTables s).longs = (tables s.reg.optionMap).longs from rfl, longWord_plain hq (h.lookup_means hm), show (longOf o).takes = hasArg o.cfg.action from rfl, ha]
    rw [if_neg (by decide)]
    dsimp only
    rw [ih]
    rfl
  | @longWith n v e o ws rest es hq hm ha _ ih =>
    rw [h.scan_long (by simp), show (shownTables s).longs = (tables s.reg.optionMap).longs from rfl, longWord_with hq (h.lookup_means hm), show (longOf o).takes = hasArg o.cfg.action from rfl, ha]
    rw [if_pos rfl]
    dsimp only
    rw [ih]
    rfl
  | @longNext n e t o ws rest es hn hq hm ha _ ih =>
    rw [h.scan_long hn, show (shownTables s).longs = (tables s.reg.optionMap).longs from rfl, longWord_plain hq (h.lookup_means hm), show (longOf o).takes = hasArg o.cfg.action from rfl, ha]
    rw [if_pos rfl]
    dsimp only
    unfold scan
    rw [ih]
    rfl
  | @shorts os e ws rest es hne hos _ ih =>
    have h1 := h.scan_flags (posix := posix) hos (r := []) (e := e) (by simpa using hne) (fun _ => by simp) ws
    rw [List.append_nil] at h1
    rw [h1]
    show (mentions os ++ (scan (orderOf posix) (shownTables s) none ws).1, (scan (orderOf posix) (shownTables s) none ws).2) = _
    rw [ih]
  | @shortsWith os o v e ws rest es hos ho hv _ ih =>
    rw [h.scan_flags hos (by simp) (fun _ => by simpa using ho.notDash h),
      show cluster (shownTables s).shorts e (shortChar o :: v) = _ from h.cluster_taker ho e v, if_neg hv, ih]
    rfl
  | @shortsNext os o t e ws rest es hos ho _ ih =>
    rw [h.scan_flags hos (by simp) (fun _ => by simpa using ho.notDash h),
      show cluster (shownTables s).shorts e [shortChar o] = _ from h.cluster_taker ho e [], if_pos rfl]
    dsimp only
    unfold scan
    rw [ih]
    rfl

/-- What the scanner finds, if it finds nothing wrong, can be read. -/
theorem Readable.sound (h : Readable s) (posix : Bool) : ∀ (ws : List Text),
    (wrong ∉ (scan (orderOf posix) (shownTables s) none ws).1 →
      Reads posix s ws (scan (orderOf posix) (shownTables s) none ws).1 (scan (orderOf posix) (shownTables s) none ws).2) ∧
    ∀ i, wrong ∉ (scan (orderOf posix) (shownTables s) (some i) ws).1 → ∃ t ws', ws = t :: ws' ∧
      (scan (orderOf posix) (shownTables s) (some i) ws).1 = ⟨i, some t⟩ :: (scan (orderOf posix) (shownTables s) none ws').1 ∧
      (scan (orderOf posix) (shownTables s) (some i) ws).2 = (scan (orderOf posix) (shownTables s) none ws').2 ∧
      Reads posix s ws' (scan (orderOf posix) (shownTables s) none ws').1 (scan (orderOf posix) (shownTables s) none ws').2
  | [] => by
    refine ⟨fun _ => .done, fun i hw => ?_⟩
    exfalso
    apply hw
    show wrong ∈ [missing (shownTables s)]
    have hh := shortTable_head h.writable
    unfold missing
    split
    · next e => exact absurd rfl (hh _ _ e).2.2.2.1
    · exact List.mem_cons_self
  | t :: ws => by
    obtain ⟨ih1, ih2⟩ := h.sound posix ws
    constructor
    · intro hw
      by_cases h1 : t.bytes = [45, 45]
      · have hs : scan (orderOf posix) (shownTables s) none (t :: ws) = ([], ws) := by unfold scan; rw [if_pos h1]
        rw [hs]
        obtain ⟨b, e⟩ := t
        cases h1
        exact .stop
      · by_cases h2 : isWord t.bytes = true
        · cases posix with
          | true =>
            have hs : scan (orderOf true) (shownTables s) none (t :: ws) = ([], t :: ws) := by
              unfold scan; rw [if_neg h1, if_pos h2]; rfl
            rw [hs]
            exact .words rfl ((isWord_iff _).1 h2)
          | false =>
            have hs : scan (orderOf false) (shownTables s) none (t :: ws) =
                ((scan (orderOf false) (shownTables s) none ws).1, t :: (scan (orderOf false) (shownTables s) none ws).2) := by
              conv => lhs; unfold scan
              rw [if_neg h1, if_pos h2]; rfl
            rw [hs] at hw ⊢
            exact .word rfl ((isWord_iff _).1 h2) (ih1 hw)
        · obtain ⟨b, e⟩ := t
          dsimp only at h1 h2
          match b with
          | [] => exact absurd rfl h2
          | [c] => exact absurd (by unfold isWord; split <;> simp_all) h2
          | c :: d :: r =>
            have hc : c = 45 := by
              by_cases hc : c = 45
              · exact hc
              · exact absurd ((isWord_iff _).2 (.inl (by simpa using hc))) h2
            subst hc
            by_cases hd : d = 45
            · subst hd
              have hr : r ≠ [] := by rintro rfl; exact h1 rfl
              rw [h.scan_long hr] at hw ⊢
              obtain ⟨hq, hsplit⟩ := name_split r
              generalize r.takeWhile (· ≠ 61) = n at hq hsplit
              cases hl : lookupLong (shownTables s).longs n with
              | none =>
                exfalso
                apply hw
                have : (longWord (shownTables s).longs e r).1 = [wrong] := by
                  have hn : r.takeWhile (· ≠ 61) = n := by
                    rcases hsplit with rfl | ⟨v, rfl⟩
                    · simpa using name_of (r := []) hq (.inl rfl)
                    · exact name_of hq (.inr ⟨v, rfl⟩)
                  unfold longWord
                  dsimp only
                  rw [hn, hl]
                rw [this]
                exact List.mem_cons_self
              | some l =>
                obtain ⟨o, hm, rfl⟩ := h.lookup_inv hl
                rcases hsplit with rfl | ⟨v, rfl⟩
                · rw [longWord_plain hq hl, show (longOf o).takes = hasArg o.cfg.action from rfl] at hw ⊢
                  cases ha : hasArg o.cfg.action with
                  | false =>
                    rw [ha] at hw
                    refine .long hr hq hm ha (ih1 fun hn => hw ?_)
                    exact List.mem_cons_of_mem _ hn
                  | true =>
                    rw [ha] at hw
                    obtain ⟨t', ws', rfl, e1, e2, hR⟩ := ih2 o.id hw
                    show Reads posix s _ (scan (orderOf posix) (shownTables s) (some o.id) (t' :: ws')).1 (scan (orderOf posix) (shownTables s) (some o.id) (t' :: ws')).2
                    rw [e1, e2]
                    exact .longNext hr hq hm ha hR
                · rw [longWord_with hq hl, show (longOf o).takes = hasArg o.cfg.action from rfl] at hw ⊢
                  cases ha : hasArg o.cfg.action with
                  | false =>
                    rw [ha] at hw
                    exact absurd List.mem_cons_self hw
                  | true =>
                    rw [ha] at hw
                    refine .longWith hq hm ha (ih1 fun hn => hw ?_)
                    exact List.mem_cons_of_mem _ hn
            · rcases h.cluster_cases e (d :: r) with hx | ⟨os, hos, hb⟩ | ⟨os, o, v, hos, ho, hb⟩
              · rw [h.scan_short hd] at hw
                exact absurd (List.mem_append_left _ hx) hw
              · have hne : os ≠ [] := by rintro rfl; cases hb
                have h3 := h.scan_flags (posix := posix) hos (r := []) (e := e) (by simpa using hne) (fun _ => by simp) ws
                rw [List.append_nil] at h3
                rw [hb, h3] at hw ⊢
                refine .shorts hne hos (ih1 fun hn => hw ?_)
                exact List.mem_append_right _ hn
              · have h3 := h.scan_flags (posix := posix) hos (r := shortChar o :: v) (e := e) (by simp) (fun _ => by simpa using ho.notDash h) ws
                rw [show cluster (shownTables s).shorts e (shortChar o :: v) = _ from h.cluster_taker ho e v] at h3
                rw [hb, h3] at hw ⊢
                by_cases hv : v = []
                · subst hv
                  rw [if_pos rfl] at hw ⊢
                  obtain ⟨t', ws', rfl, e1, e2, hR⟩ := ih2 o.id fun hn => hw (List.mem_append_right _ hn)
                  show Reads posix s _ (mentions os ++ (scan (orderOf posix) (shownTables s) (some o.id) (t' :: ws')).1) (scan (orderOf posix) (shownTables s) (some o.id) (t' :: ws')).2
                  rw [e1, e2]
                  exact .shortsNext hos ho hR
                · rw [if_neg hv] at hw ⊢
                  refine .shortsWith hos ho hv (ih1 fun hn => hw ?_)
                  exact List.mem_append_right _ (List.mem_cons_of_mem _ hn)
    · intro i hw
      refine ⟨t, ws, rfl, rfl, rfl, ih1 fun hn => hw ?_⟩
      exact List.mem_cons_of_mem _ hn

end Verif.Args
