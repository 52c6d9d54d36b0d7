import Verif.Event.EqProps
import Verif.Event.MsgPack
import Verif.Val.PathProps
import Verif.Val.Compare
/-!
# What the words used in the claims on events mean

`isNaN` and `nesting` appear in the statements of C33 and C53; here they are tied to the
reading of a double as a number and to the paths that lead into a value.
-/

namespace Verif.Event

/-- The bits of a NaN are those with all exponent bits set and some fraction bit. -/
theorem isNaN_iff (d : UInt64) : isNaN d = true ↔ d.toNat / 2 ^ 52 % 2048 = 2047 ∧ d.toNat % 2 ^ 52 ≠ 0 := by
  have h1 : d &&& 0x7FF0000000000000 = 0x7FF0000000000000 ↔ d.toNat / 2 ^ 52 % 2048 = 2047 := by
    rw [← UInt64.toNat_inj, UInt64.toNat_and]
    show d.toNat &&& (2047 <<< 52) = 2047 <<< 52 ↔ _
    rw [← Nat.shiftRight_eq_div_pow, show (2048 : Nat) = 2 ^ 11 from rfl, ← Nat.and_two_pow_sub_one_eq_mod]
    show _ ↔ d.toNat >>> 52 &&& 2047 = 2047
    constructor
    · intro h
      have : (d.toNat &&& (2047 <<< 52)) >>> 52 = (2047 <<< 52) >>> 52 := congrArg (· >>> 52) h
      rw [Nat.shiftRight_and_distrib] at this; exact this
    · intro h
      have h2 := congrArg (· <<< 52) h
      refine Eq.trans (Nat.eq_of_testBit_eq fun i => ?_) h2
      simp only [Nat.testBit_and, Nat.testBit_shiftLeft, Nat.testBit_shiftRight]
      by_cases hi : 52 ≤ i
      · simp [hi]
      · simp [hi]
  have h2 : d &&& 0x000FFFFFFFFFFFFF = 0 ↔ d.toNat % 2 ^ 52 = 0 := by
    rw [← UInt64.toNat_inj, UInt64.toNat_and, ← Nat.and_two_pow_sub_one_eq_mod]
    rfl
  unfold isNaN
  simp only [Bool.and_eq_true, beq_iff_eq, bne_iff_ne, ne_eq]
  rw [h1, h2]

/-- It is the doubles that stand for no number at all. -/
theorem isNaN_no_number (d : UInt64) : isNaN d = true ↔ LD.ofDouble d = .nan := by
  rw [isNaN_iff]
  unfold LD.ofDouble
  constructor
  · rintro ⟨h, h2⟩
    simp [h, h2]
  · intro h
    by_cases he : d.toNat / 2 ^ 52 % 2048 = 2047
    · by_cases hf : d.toNat % 2 ^ 52 = 0
      · simp [he, hf] at h
      · exact ⟨he, hf⟩
    · simp [he] at h

example : isNaN 0x7FF8000000000000 = true ∧ isNaN 0x7FF0000000000000 = false ∧ isNaN 0x3FF0000000000000 = false := by
  decide

/-- One step down into a value: to an item of a list or to the value under a key of a map. -/
inductive Inside : Val → Val → Prop
  | item {xs : List Val} {x : Val} (h : x ∈ xs) : Inside x (.list xs)
  | entry {m : List (Bytes × Val)} {k : Bytes} {x : Val} (h : (k, x) ∈ m) : Inside x (.map m)

/-- One can go down `n` steps from the value. -/
inductive Down : Val → Nat → Prop
  | here (v : Val) : Down v 0
  | step {v c : Val} {n : Nat} (hc : Inside c v) (h : Down c n) : Down v (n + 1)

theorem nestingList_mem : ∀ {xs : List Val} {x : Val}, x ∈ xs → nesting x ≤ nestingList xs
  | y :: ys, x, h => by
    rw [nestingList]
    cases h with
    | head => exact Nat.le_max_left ..
    | tail _ h => exact Nat.le_trans (nestingList_mem h) (Nat.le_max_right ..)

theorem nestingMap_mem : ∀ {m : List (Bytes × Val)} {k : Bytes} {x : Val}, (k, x) ∈ m → nesting x ≤ nestingMap m
  | (_, y) :: ys, k, x, h => by
    rw [nestingMap]
    cases h with
    | head => exact Nat.le_max_left ..
    | tail _ h => exact Nat.le_trans (nestingMap_mem h) (Nat.le_max_right ..)

theorem nestingList_at : ∀ {xs : List Val}, xs ≠ [] → ∃ x ∈ xs, nestingList xs = nesting x
  | [x], _ => ⟨x, List.mem_singleton_self x, by simp [nestingList]⟩
  | x :: y :: ys, _ => by
    obtain ⟨z, hz, e⟩ := nestingList_at (xs := y :: ys) (by simp)
    rw [nestingList]
    by_cases h : nesting x ≤ nestingList (y :: ys)
    · exact ⟨z, List.mem_cons_of_mem _ hz, by rw [Nat.max_eq_right h, e]⟩
    · exact ⟨x, List.mem_cons_self, by rw [Nat.max_eq_left (by omega)]⟩

theorem nestingMap_at : ∀ {m : List (Bytes × Val)}, m ≠ [] → ∃ k x, (k, x) ∈ m ∧ nestingMap m = nesting x
  | [(k, x)], _ => ⟨k, x, List.mem_singleton_self _, by simp [nestingMap]⟩
  | (k, x) :: y :: ys, _ => by
    obtain ⟨k2, z, hz, e⟩ := nestingMap_at (m := y :: ys) (by simp)
    rw [nestingMap]
    by_cases h : nesting x ≤ nestingMap (y :: ys)
    · exact ⟨k2, z, List.mem_cons_of_mem _ hz, by rw [Nat.max_eq_right h, e]⟩
    · exact ⟨k, x, List.mem_cons_self, by rw [Nat.max_eq_left (by omega)]⟩

/-- `nesting` is the number of steps one can go down from a value, and no more. -/
theorem nesting_steps (v : Val) (n : Nat) : Down v n ↔ n ≤ nesting v := by
  constructor
  · intro h
    induction h with
    | here => exact Nat.zero_le _
    | step hc _ ih =>
      cases hc with
      | @item xs x h =>
        cases xs with
        | nil => cases h
        | cons y ys => rw [nesting_list]; exact Nat.succ_le_succ (Nat.le_trans ih (nestingList_mem h))
      | @entry m k x h =>
        cases m with
        | nil => cases h
        | cons y ys => rw [nesting_map]; exact Nat.succ_le_succ (Nat.le_trans ih (nestingMap_mem h))
  · intro h
    induction n generalizing v with
    | zero => exact .here v
    | succ n ih =>
      match v with
      | .list (x :: xs) =>
        rw [nesting_list] at h
        obtain ⟨z, hz, e⟩ := nestingList_at (xs := x :: xs) (by simp)
        exact .step (.item hz) (ih z (by omega))
      | .map (x :: xs) =>
        rw [nesting_map] at h
        obtain ⟨k, z, hz, e⟩ := nestingMap_at (m := x :: xs) (by simp)
        exact .step (.entry hz) (ih z (by omega))
      | .list [] | .map [] | .null | .bool _ | .int _ | .uint _ | .flt _ | .str _ | .blob _ =>
        simp [nesting] at h

example : Down (.list [.null, .map [([97], .list [.int 1])]]) 3 ∧ ¬ Down (.list [.null, .map [([97], .list [.int 1])]]) 4 := by
  constructor
  · exact (nesting_steps _ _).2 (by decide)
  · exact fun h => absurd ((nesting_steps _ _).1 h) (by decide)

end Verif.Event
