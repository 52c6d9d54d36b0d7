import Verif.Json.RoundTrip
import Verif.Base64.Props
/-!
# The text of a JSON document has no NUL byte (lemma for C45)
-/

namespace Verif.Payload
open Verif Verif.JsonEmit Verif.JsonDrv Verif.JsonTok

theorem noNul_digits {t : Bytes} (h : ∀ b ∈ t, isDigit b = true) : (0 : UInt8) ∉ t := fun h0 => by
  have := h 0 h0; revert this; decide

theorem noNul_intPart {t : Bytes} (h : IntPart t) : (0 : UInt8) ∉ t := by
  rcases h with rfl | ⟨d, ds, rfl, _, h⟩
  · decide
  · exact noNul_digits h

theorem noNul_float {t : Bytes} (h : FloatText t) : (0 : UInt8) ∉ t := by
  obtain ⟨sg, ip, fp, ex, rfl, h1, h2, h3, h4⟩ := h
  have e1 : (0 : UInt8) ∉ sg := by rcases h1 with rfl | rfl <;> decide
  have e4 : (0 : UInt8) ∉ ex := by
    rcases h4 with rfl | ⟨x, sn, ds, rfl, hx, hs, _, hd⟩
    · decide
    · have a1 : (0 : UInt8) ∉ sn := by rcases hs with rfl | rfl | rfl <;> decide
      have a2 : ¬ (0 : UInt8) = x := by rcases hx with rfl | rfl <;> decide
      have a3 := noNul_digits hd
      simp [a1, a2, a3]
  have e2 := noNul_intPart h2
  have e3 := noNul_digits h3
  simp [e1, e2, e3, e4]

theorem noNul_esc (b : UInt8) : (0 : UInt8) ∉ escChar b := fun h => by
  have := (esc_quotes b).1 0 h; revert this; decide

theorem noNul_string (s : Bytes) : (0 : UInt8) ∉ text (emitString s) := by
  unfold emitString
  have key : ∀ t : Bytes, (0 : UInt8) ∉ text (t.map fun b => Chunk.raw (escChar b)) := by
    intro t
    induction t with
    | nil => simp
    | cons b t ih => simp [Chunk.text, ih, noNul_esc b]
  have := key ((cstr s).take ((cstr s).length % 2 ^ 32))
  simp only [List.cons_append, text_cons, text_append, Chunk.text, text_nil]
  intro h0
  simp at h0
  exact this (by simpa using h0)

theorem digit_ne (n : Nat) : ¬ (0 : UInt8) = B64Spec.digit n := by
  have key : ∀ k : Fin 64, ¬ (0 : UInt8) = B64Spec.digit k.val := by decide +kernel
  by_cases h : n < 64
  · exact key ⟨n, h⟩
  · unfold B64Spec.digit
    rw [if_neg (by omega), if_neg (by omega), if_neg (by omega), if_neg (by omega)]
    decide

theorem noNul_rfc (l : Bytes) : (0 : UInt8) ∉ B64Spec.rfc4648 l := by
  induction l using B64Spec.rfc4648.induct with
  | case1 => simp [B64Spec.rfc4648]
  | case2 a => simp [B64Spec.rfc4648, digit_ne]
  | case3 a b => simp [B64Spec.rfc4648, digit_ne]
  | case4 a b c rest ih => simp [B64Spec.rfc4648, digit_ne, ih]

theorem noNul_blob {segs : List Bytes} {t : Bytes} (hp : ∀ s ∈ segs, s ≠ []) (h : B64.encode segs 0 = .ok t) :
    (0 : UInt8) ∉ t := by
  obtain ⟨t', h1, h2⟩ := B64.encode_rfc4648 segs 0 hp
  rw [h] at h1
  cases h1
  intro h0
  apply noNul_rfc segs.flatten
  rw [← h2]
  simp [B64Spec.unwrap, h0]

theorem noNul_ind (c : Cfg) (d : Nat) : (0 : UInt8) ∉ ind c d := by
  unfold ind emitIndent
  split <;> simp [Chunk.text]

mutual
/-- The text of a value without empty blob segments has no NUL byte. -/
theorem body_noNul {ff : FloatFmt} {fo : FloatOps} (hl : FloatLaw ff fo) (c : Cfg) : ∀ (v : Val) (d : Nat) (b : Bytes),
    Plain v → body ff c d v = .ok b → (0 : UInt8) ∉ b
  | .null, d, b, _, h => by cases h; decide
  | .bool true, d, b, _, h => by cases h; decide
  | .bool false, d, b, _, h => by cases h; decide
  | .int i, d, b, _, h => by
    cases h
    simp only [intDec]
    have := noNul_digits (natDec_all_digits i.toInt.natAbs)
    split <;> simp [this]
  | .uint u, d, b, _, h => by cases h; exact noNul_digits (natDec_all_digits _)
  | .str s, d, b, _, h => by cases h; exact noNul_string s
  | .flt x, d, b, _, h => by
    simp only [body, scalarText] at h
    split at h
    · split at h
      · cases h
      · cases h; decide
    · rename_i hn; cases h; exact noNul_float (hl.shape _ _ (by simpa using hn))
  | .blob segs, d, b, hp, h => by
    simp only [Plain] at hp
    simp only [body, scalarText] at h
    split at h
    · cases h
    · cases he : B64.encode segs 0 with
      | throw e => rw [he] at h; simp at h
      | ub => rw [he] at h; simp at h
      | ok t =>
        rw [he] at h
        simp only [Out.bind_ok] at h
        split at h
        · cases h; simp [noNul_blob hp he]
        · cases h
  | .list xs, d, b, hp, h => by
    simp only [Plain] at hp
    simp only [body] at h
    cases hx : bodyList ff c d true xs with
    | throw e => rw [hx] at h; cases h
    | ub => rw [hx] at h; cases h
    | ok t =>
      rw [hx] at h
      cases h
      simp [bodyList_noNul hl c xs d true t hp hx, noNul_ind]
  | .map m, d, b, hp, h => by
    simp only [Plain] at hp
    simp only [body] at h
    cases hx : bodyMap ff c d true m with
    | throw e => rw [hx] at h; cases h
    | ub => rw [hx] at h; cases h
    | ok t =>
      rw [hx] at h
      cases h
      simp [bodyMap_noNul hl c m d true t hp hx, noNul_ind]
theorem bodyList_noNul {ff : FloatFmt} {fo : FloatOps} (hl : FloatLaw ff fo) (c : Cfg) : ∀ (xs : List Val) (d : Nat)
    (f : Bool) (b : Bytes), PlainList xs → bodyList ff c d f xs = .ok b → (0 : UInt8) ∉ b
  | [], d, f, b, _, h => by cases h; simp
  | x :: xs, d, f, b, hp, h => by
    simp only [PlainList] at hp
    simp only [bodyList] at h
    cases hx : body ff c (d + 1) x with
    | throw e => rw [hx] at h; cases h
    | ub => rw [hx] at h; cases h
    | ok t =>
      rw [hx, Out.bind_ok] at h
      cases hy : bodyList ff c d false xs with
      | throw e => rw [hy] at h; cases h
      | ub => rw [hy] at h; cases h
      | ok t' =>
        rw [hy] at h
        cases h
        have h1 := body_noNul hl c x (d + 1) t hp.1 hx
        have h2 := bodyList_noNul hl c xs d false t' hp.2 hy
        cases f <;> simp [h1, h2, noNul_ind]
theorem bodyMap_noNul {ff : FloatFmt} {fo : FloatOps} (hl : FloatLaw ff fo) (c : Cfg) : ∀ (m : List (Bytes × Val)) (d : Nat)
    (f : Bool) (b : Bytes), PlainMap m → bodyMap ff c d f m = .ok b → (0 : UInt8) ∉ b
  | [], d, f, b, _, h => by cases h; simp
  | (k, x) :: m, d, f, b, hp, h => by
    simp only [PlainMap] at hp
    simp only [bodyMap] at h
    cases hx : body ff c (d + 1) x with
    | throw e => rw [hx] at h; cases h
    | ub => rw [hx] at h; cases h
    | ok t =>
      rw [hx, Out.bind_ok] at h
      cases hy : bodyMap ff c d false m with
      | throw e => rw [hy] at h; cases h
      | ub => rw [hy] at h; cases h
      | ok t' =>
        rw [hy] at h
        cases h
        have h1 := body_noNul hl c x (d + 1) t hp.2.1 hx
        have h2 := bodyMap_noNul hl c m d false t' hp.2.2 hy
        cases f <;> simp [h1, h2, noNul_ind, noNul_string]
end

end Verif.Payload
