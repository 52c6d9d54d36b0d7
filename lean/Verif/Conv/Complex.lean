import Verif.Conv.Round
/-!
# Which values are complex numbers (include/Variant/Variant.h 519-540)
-/

namespace Verif.Conv
open Verif

/-- Specification: the value is written as a complex number with these parts, if they are given. -/
inductive Parts : Val → Option Val → Option Val → Prop where
  | null : Parts .null none none
  | number {v} (h : Schema.isNumber v = true) : Parts v (some v) none
  | map (m) : Parts (.map m) (AMap.get m kReal) (AMap.get m kImag)
  | list (xs : List Val) : Parts (.list xs) xs[0]? xs[1]?

/-- Specification: a part that is given is cast, one that is not is zero. -/
def IsPart (zero : α) (f : Val → Out α) (x : Option Val) (r : α) : Prop :=
  (∀ v, x = some v → f v = .ok r) ∧ (x = none → r = zero)

theorem isPart_none {zero : α} {f : Val → Out α} {r : α} : IsPart zero f none r ↔ r = zero := by simp [IsPart]

theorem isPart_some {zero : α} {f : Val → Out α} {v : Val} {r : α} : IsPart zero f (some v) r ↔ f v = .ok r := by simp [IsPart]

/-- C91.  A value is converted to a complex number exactly if it is written as one and the parts that are given can be converted: maps with whatever
other keys and lists of any length, but no truth values, texts or blobs. -/
theorem complex_exact (zero : α) (f : Val → Out α) (v : Val) (r c : α) :
    castComplex zero f v = .ok (r, c) ↔ ∃ x y, Parts v x y ∧ IsPart zero f x r ∧ IsPart zero f y c := by
  have num : Schema.isNumber v = true → ((·, zero) <$> f v = Out.ok (r, c) ↔ ∃ x y, Parts v x y ∧ IsPart zero f x r ∧ IsPart zero f y c) := by
    intro h
    constructor
    · intro e
      refine ⟨_, _, .number h, isPart_some.2 ?_, isPart_none.2 ?_⟩ <;> cases e' : f v <;> simp_all
    · rintro ⟨x, y, hp, h1, h2⟩
      cases hp <;> first | (simp [Schema.isNumber] at h; done) | skip
      rw [isPart_some] at h1
      rw [isPart_none] at h2
      simp [h1, h2]
  cases v with
  | int i => exact num rfl
  | uint i => exact num rfl
  | flt i => exact num rfl
  | null =>
    constructor
    · intro e
      cases e
      exact ⟨_, _, .null, isPart_none.2 rfl, isPart_none.2 rfl⟩
    · rintro ⟨x, y, hp, h1, h2⟩
      cases hp with
      | null => rw [isPart_none] at h1 h2; simp [castComplex, h1, h2]
      | number h => simp [Schema.isNumber] at h
  | map m =>
    have e0 : castComplex zero f (.map m) = .ok (r, c) ↔ IsPart zero f (AMap.get m kReal) r ∧ IsPart zero f (AMap.get m kImag) c := by
      have k1 : ([114, 101, 97, 108] : Bytes) = kReal := rfl
      have k2 : ([105, 109, 97, 103] : Bytes) = kImag := rfl
      simp only [castComplex, k1, k2]
      cases AMap.get m kReal with
      | none =>
        cases AMap.get m kImag with
        | none => simp [isPart_none, eq_comm]
        | some y => cases e' : f y <;> simp [isPart_none, isPart_some, e', eq_comm]
      | some x =>
        cases AMap.get m kImag with
        | none => cases e' : f x <;> simp [isPart_none, isPart_some, e', eq_comm]
        | some y => cases e' : f x <;> cases e2 : f y <;> simp [isPart_some, e', e2]
    rw [e0]
    constructor
    · rintro ⟨h1, h2⟩
      exact ⟨_, _, .map m, h1, h2⟩
    · rintro ⟨x, y, hp, h1, h2⟩
      cases hp with
      | map => exact ⟨h1, h2⟩
      | number h => simp [Schema.isNumber] at h
  | list xs =>
    have e0 : castComplex zero f (.list xs) = .ok (r, c) ↔ IsPart zero f xs[0]? r ∧ IsPart zero f xs[1]? c := by
      match xs with
      | [] =>
        simp only [List.getElem?_nil, isPart_none, castComplex, Out.ok.injEq, Prod.mk.injEq]
        exact ⟨fun h => ⟨h.1.symm, h.2.symm⟩, fun h => ⟨h.1.symm, h.2.symm⟩⟩
      | [x] =>
        simp only [List.getElem?_cons_zero, List.getElem?_cons_succ, List.getElem?_nil, isPart_none, isPart_some, castComplex]
        cases e' : f x <;> simp [eq_comm]
      | x :: y :: _ =>
        simp only [List.getElem?_cons_zero, List.getElem?_cons_succ, isPart_some, castComplex, Out.bind_eq_ok, Out.ok.injEq, Prod.mk.injEq]
        constructor
        · rintro ⟨a, h1, b, h2, rfl, rfl⟩
          exact ⟨h1, h2⟩
        · rintro ⟨h1, h2⟩
          exact ⟨r, h1, c, h2, rfl, rfl⟩
    rw [e0]
    constructor
    · rintro ⟨h1, h2⟩
      exact ⟨_, _, .list xs, h1, h2⟩
    · rintro ⟨x, y, hp, h1, h2⟩
      cases hp with
      | list => exact ⟨h1, h2⟩
      | number h => simp [Schema.isNumber] at h
  | _ =>
    constructor
    · intro e
      cases e
    · rintro ⟨x, y, hp, h1, h2⟩
      cases hp with
      | number h => simp [Schema.isNumber] at h

/-- A map with a further key, a list of three and an empty list; a text is none. -/
example : castComplex 0 asInt (.map [([97], .null), (kImag, .int 2), (kReal, .int 1)]) = .ok (1, 2) ∧ castComplex 0 asInt (.list [.int 1, .int 2, .null]) = .ok (1, 2) ∧
    castComplex 0 asInt (.list []) = .ok (0, 0) ∧ castComplex 0 asInt (.str [49]) = .throw .unableToConvert := by decide

end Verif.Conv
