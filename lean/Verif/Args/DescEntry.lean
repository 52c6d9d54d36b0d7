import Verif.Args.Desc
import Verif.Args.GenLeaf
/-!
# What the description of an entry contains, and what merging it makes
-/

namespace Verif.Args
open Verif JsonDrv Schema

/-! ## Maps -/

theorem get_erase {m : List (Bytes × Val)} (h : AMap.Sorted m) (k k' : Bytes) :
    AMap.get (AMap.erase m k) k' = if k' = k then none else AMap.get m k' := by
  by_cases e : k' = k
  · subst e; rw [if_pos rfl, AMap.get_erase_self h]
  · rw [if_neg e, AMap.get_erase_other _ _ _ e]

theorem sorted_mergeKeys {m : List (Bytes × Val)} (h : AMap.Sorted m) : ∀ o : List (Bytes × Val), AMap.Sorted (mergeKeys m o) := by
  intro o
  induction o generalizing m with
  | nil => exact h
  | cons e o ih => exact ih (AMap.sorted_set h _ _)

theorem get_mergeKeys_none {m o : List (Bytes × Val)} {k : Bytes} (h : AMap.get o k = none) : AMap.get (mergeKeys m o) k = AMap.get m k := by
  induction o generalizing m with
  | nil => rfl
  | cons e o ih =>
    obtain ⟨k', v⟩ := e
    simp only [AMap.get] at h
    split at h
    · cases h
    · rename_i hne
      show AMap.get (mergeKeys (AMap.set m k' v) o) k = _
      rw [ih h, AMap.get_set_other _ _ _ _ (fun e => hne e.symm)]

theorem get_mergeKeys {m o : List (Bytes × Val)} (ho : AMap.Sorted o) (k : Bytes) :
    AMap.get (mergeKeys m o) k = (AMap.get o k).or (AMap.get m k) := by
  induction o generalizing m with
  | nil => rfl
  | cons e o ih =>
    obtain ⟨k', v⟩ := e
    show AMap.get (mergeKeys (AMap.set m k' v) o) k = _
    rw [ih ho.2, get_set]
    simp only [AMap.get]
    by_cases e : k' = k
    · subst e
      rw [if_pos rfl, if_pos rfl, AMap.get_none_of_above ho.1]; rfl
    · rw [if_neg e, if_neg (fun h => e h.symm)]

theorem get_mergeKeys_any {m o : List (Bytes × Val)} {k : Bytes} :
    AMap.get (mergeKeys m o) k = AMap.get m k ∨ ∃ v, (k, v) ∈ o ∧ AMap.get (mergeKeys m o) k = some v := by
  induction o generalizing m with
  | nil => exact .inl rfl
  | cons e o ih =>
    obtain ⟨k', v⟩ := e
    show AMap.get (mergeKeys (AMap.set m k' v) o) k = _ ∨ ∃ x, _ ∧ AMap.get (mergeKeys (AMap.set m k' v) o) k = _
    rcases ih (m := AMap.set m k' v) with h | ⟨x, h1, h2⟩
    · rw [h, get_set]
      by_cases e : k = k'
      · subst e; exact .inr ⟨v, List.mem_cons_self, by rw [if_pos rfl]⟩
      · rw [if_neg e]; exact .inl rfl
    · exact .inr ⟨x, List.mem_cons_of_mem _ h1, h2⟩

theorem mergeKeys_nil {m : List (Bytes × Val)} (h : AMap.Sorted m) : mergeKeys [] m = m := by
  refine AMap.ext (sorted_mergeKeys (m := []) trivial _) h fun k => ?_
  rw [get_mergeKeys h]; cases AMap.get m k <;> rfl

/-! ## The description of an entry -/

/-- What a description adds to the settings. -/
def extra (o : Opt) (a : Bytes) (k : Bytes) : Option (Option Val) :=
  if k = kAdvanced then some (some (.bool o.cfg.advanced))
  else if k = kKeypath then some (some (.str (PathM.pathString o.path)))
  else if k = kRequired then some (some (.bool o.cfg.required))
  else if k = kAction then some (some (.str a))
  else if k = kLongOption then some (if o.long ≠ [] then some (.str o.long) else none)
  else if k = kShortOption then some (if o.short > 0 then some (.str [(toChar o.short).toUInt8]) else none)
  else if k = kType then some (some (typeVal o.cfg.ty))
  else none

theorem get_setShort {m : List (Bytes × Val)} (h : AMap.Sorted m) (sh : Int32) (k : Bytes) : AMap.Sorted (setShort m sh) ∧
    AMap.get (setShort m sh) k = if k = kShortOption then (if sh > 0 then some (.str [(toChar sh).toUInt8]) else none) else AMap.get m k := by
  unfold setShort
  by_cases hs : sh > 0
  · rw [if_pos hs, if_pos hs]; exact ⟨AMap.sorted_set h _ _, get_set _ _ _ _⟩
  · rw [if_neg hs, if_neg hs]; exact ⟨AMap.sorted_erase h _, get_erase h _ _⟩

theorem get_setText {m : List (Bytes × Val)} (h : AMap.Sorted m) (k' t : Bytes) (k : Bytes) : AMap.Sorted (setText m k' t) ∧
    AMap.get (setText m k' t) k = if k = k' then (if t ≠ [] then some (.str t) else none) else AMap.get m k := by
  unfold setText
  by_cases hs : t ≠ []
  · rw [if_pos hs, if_pos hs]; exact ⟨AMap.sorted_set h _ _, get_set _ _ _ _⟩
  · rw [if_neg hs, if_neg hs]; exact ⟨AMap.sorted_erase h _, get_erase h _ _⟩

/-- The description of an entry with known action. -/
theorem describeOpt_ok {o : Opt} {m : List (Bytes × Val)} (hm : o.cfg.opt = .map m) (hs : AMap.Sorted m) {a : Bytes}
    (ha : actionWord o.cfg.action = .ok a) :
    ∃ D, describeOpt o = .ok (.map D) ∧ AMap.Sorted D ∧ ∀ k, AMap.get D k = (extra o a k).getD (AMap.get m k) := by
  unfold describeOpt settings
  rw [hm, ha]
  simp only []
  rw [mergeKeys_nil hs]
  have h1 := AMap.sorted_set hs kType (typeVal o.cfg.ty)
  have h2 := fun k => get_setShort h1 o.short k
  have h3 := fun k => get_setText (h2 k).1 kLongOption o.long k
  refine ⟨_, rfl, AMap.sorted_set (AMap.sorted_set (AMap.sorted_set (AMap.sorted_set (h3 []).1 _ _) _ _) _ _) _ _, fun k => ?_⟩
  rw [get_set, get_set, get_set, get_set, (h3 k).2, (h2 k).2, get_set]
  unfold extra
  repeat (split; · rfl)
  rfl

theorem describeOpt_action {o : Opt} {d : Val} (h : describeOpt o = .ok d) : ∃ a, actionWord o.cfg.action = .ok a := by
  unfold describeOpt at h
  simp only [] at h
  split at h
  · exact ⟨_, by assumption⟩
  · cases h
  · cases h

theorem actionOf_word {a : Action} {t : Bytes} (h : actionWord a = .ok t) : actionOf t = a := by
  cases a <;> cases h <;> decide

theorem actionWord_inj {a b : Action} {t : Bytes} (h : actionWord a = .ok t) (h' : actionWord b = .ok t) : a = b := by
  rw [← actionOf_word h, ← actionOf_word h']

/-- Types that have a word. -/
def wordType : Ty → Prop
  | .blob | .list | .map => False
  | _ => True

theorem parse_typeVal {t : Ty} (h : wordType t) : ∃ t', parseType (typeVal t) = .ok t' ∧ typeVal t' = typeVal t ∧ (t ≠ .uint → t' = t) := by
  cases t <;> first | exact ⟨_, rfl, rfl, fun _ => rfl⟩ | exact ⟨.int, rfl, rfl, fun h => absurd rfl h⟩ | exact absurd h (by simp [wordType])

theorem firstChar_short {sh : Int32} (h : sh > 0) (h' : sh ≤ 127) : firstChar [(toChar sh).toUInt8] = sh := by
  have h1 := Int32.lt_iff_toInt_lt.1 h
  have h2 := Int32.le_iff_toInt_le.1 h'
  have e0 : (0 : Int32).toInt = 0 := by decide
  have e1 : (127 : Int32).toInt = 127 := by decide
  rw [e0] at h1; rw [e1] at h2
  show (toChar sh).toUInt8.toInt8.toInt32 = sh
  unfold toChar
  apply Int32.toInt_inj.1
  simp
  rw [Int.bmod_eq_of_le] <;> omega

end Verif.Args
