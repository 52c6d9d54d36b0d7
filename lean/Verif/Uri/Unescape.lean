import Verif.Uri.Model
import Verif.Uri.Spec
/-!
# C47: percent decoding
-/

namespace Verif.Uri
open Verif

theorem hexDigit_table : ∀ k < 256, ∀ n < 16, HexDigit (UInt8.ofNat k) n → hexDigit (UInt8.ofNat k) = some n := by
  intro k hk n hn h
  have e : (UInt8.ofNat k).toNat = k := by
    rw [UInt8.toNat_ofNat_of_lt']
    exact hk
  unfold HexDigit at h
  unfold hexDigit
  rw [e] at h
  simp only [UInt8.le_iff_toNat_le, e]
  rcases h with ⟨j, h1, h2, h3⟩ | ⟨j, h1, h2 | h2, h3⟩
  · rw [if_pos (by simp; omega)]; simp; omega
  · rw [if_neg (by simp; omega), if_pos (by simp; omega)]; simp; omega
  · rw [if_neg (by simp; omega), if_neg (by simp; omega), if_pos (by simp; omega)]; simp; omega

theorem hexDigit_spec {c : UInt8} {n : Nat} (h : HexDigit c n) : hexDigit c = some n := by
  have hn : n < 16 := by rcases h with ⟨j, h1, h2, h3⟩ | ⟨j, h1, h2, h3⟩ <;> omega
  have := hexDigit_table c.toNat c.toNat_lt n hn
  simp only [UInt8.ofNat_toNat] at this
  exact this h

theorem hexDigit_char {c : UInt8} {n : Nat} (h : HexDigit c n) : c ≠ 0 ∧ isSpace c = false ∧ c ≠ 45 ∧ c ≠ 43 := by
  have hr : (48 ≤ c.toNat ∧ c.toNat ≤ 57) ∨ (65 ≤ c.toNat ∧ c.toNat ≤ 70) ∨ (97 ≤ c.toNat ∧ c.toNat ≤ 102) := by
    rcases h with ⟨j, h1, h2, h3⟩ | ⟨j, h1, h2 | h2, h3⟩ <;> omega
  refine ⟨?_, ?_, ?_, ?_⟩
  · rintro rfl; simp at hr
  · simp only [isSpace, Bool.or_eq_false_iff, Bool.and_eq_false_iff, beq_eq_false_iff_ne, decide_eq_false_iff_not,
      UInt8.le_iff_toNat_le]
    refine ⟨by rintro rfl; simp at hr, ?_⟩
    simp
    omega
  · rintro rfl; simp at hr
  · rintro rfl; simp at hr

theorem escapeSeq_hex {a b : UInt8} {h l : Nat} (ha : HexDigit a h) (hb : HexDigit b l) :
    escapeSeq a b = [UInt8.ofNat (16 * h + l)] := by
  obtain ⟨a0, a1, a2, a3⟩ := hexDigit_char ha
  obtain ⟨b0, b1, b2, b3⟩ := hexDigit_char hb
  have e1 : [a, b].takeWhile (· ≠ 0) = [a, b] := by simp [a0, b0]
  have e2 : [a, b].dropWhile isSpace = [a, b] := by simp [List.dropWhile, a1]
  have e3 : hexRun 0 0 [a, b] = (16 * h + l, 2, []) := by
    simp [hexRun, hexDigit_spec ha, hexDigit_spec hb]
    omega
  have e4 : sign [a, b] = (false, [a, b]) := by simp [sign, a2, a3]
  have e5 : strtol16 [a, b] = (((16 * h + l : Nat) : Int), []) := by
    simp only [strtol16, e2, e4, e3]
    simp
  simp only [escapeSeq, e1, e5]
  simp only [ne_eq, not_true_eq_false, if_false, List.cons.injEq, and_true]
  apply UInt8.toNat_inj.mp
  rw [UInt8.toNat_ofNat']
  simp [UInt8.ofInt]
  omega

/-- C47.  Percent-decoding inverts percent-encoding: whatever the encoder chose to escape, and with
digits of either case. -/
theorem unescape_inverts {s t : Bytes} (h : PercentEncodes s t) : unescapeURI t = .ok s := by
  induction h with
  | nil => simp [unescapeURI]
  | plain hc _ ih => rw [unescapeURI]; simp [hc, ih]
  | @escaped c a b h l s t ha hb hc _ ih =>
    rw [unescapeURI]
    have : UInt8.ofNat (16 * h + l) = c := by rw [← hc]; simp
    simp [ih, escapeSeq_hex ha hb, this]

/-- C47.  Decoding never reads outside the string and never fails. -/
theorem unescape_safe (s : Bytes) : ∃ t, unescapeURI s = .ok t ∧ t.length ≤ s.length := by
  induction s using unescapeURI.induct with
  | case1 => exact ⟨[], by simp [unescapeURI]⟩
  | case2 r h =>
    rw [unescapeURI, if_pos rfl, if_pos h]
    exact ⟨_, rfl, (List.takeWhile_sublist _).length_le⟩
  | case3 r h a b hb ha ih =>
    obtain ⟨t, h1, h2⟩ := ih
    rw [unescapeURI, if_pos rfl, if_neg h, ha, hb]
    simp only [h1, Out.bind_ok]
    refine ⟨_, rfl, ?_⟩
    have : (escapeSeq a b).length ≤ 3 := by unfold escapeSeq; simp only; split <;> simp
    simp only [List.length_append, List.length_cons, List.length_drop] at *
    omega
  | case4 r h hx =>
    exfalso
    match r, h, hx with
    | [], h, _ => simp at h
    | [_], h, _ => simp at h
    | a :: b :: _, _, hx => exact hx a b rfl rfl
  | case5 c r h ih =>
    obtain ⟨t, h1, h2⟩ := ih
    rw [unescapeURI, if_neg h, h1]
    exact ⟨_, rfl, by simpa using h2⟩

/-- C47.  A percent sign that does not start an escape stays, with the two characters after it,
unless the first of them is a blank, a sign, a NUL or a hexadecimal digit. -/
theorem unescape_keeps {a b : UInt8} {r t : Bytes} (h : hexDigit a = none) (hs : isSpace a = false)
    (h0 : a ≠ 0) (h1 : a ≠ 45) (h2 : a ≠ 43) (ht : unescapeURI r = .ok t) :
    unescapeURI (37 :: a :: b :: r) = .ok (37 :: a :: b :: t) := by
  have e : escapeSeq a b = [37, a, b] := by
    by_cases hb : b = 0
    · simp [escapeSeq, strtol16, List.takeWhile, h0, hb, List.dropWhile, hs, sign, h1, h2, hexRun, h]
    · simp [escapeSeq, strtol16, List.takeWhile, h0, hb, List.dropWhile, hs, sign, h1, h2, hexRun, h]
  rw [unescapeURI]
  simp [ht, e]

/-- The encoding of "a%/b" with everything but the letters escaped. -/
example : unescapeURI [97, 37, 50, 53, 37, 50, 102, 98] = .ok [97, 37, 47, 98] := by
  apply unescape_inverts
  refine .plain (by decide) (.escaped (h := 2) (l := 5) ?_ ?_ rfl (.escaped (h := 2) (l := 15) ?_ ?_ rfl (.plain (by decide) .nil)))
  · exact .inl ⟨2, by decide, rfl, rfl⟩
  · exact .inl ⟨5, by decide, rfl, rfl⟩
  · exact .inl ⟨2, by decide, rfl, rfl⟩
  · exact .inr ⟨5, by decide, .inr rfl, rfl⟩

/-- "%zz" and what follows stay. -/
example : unescapeURI [37, 122, 122, 97] = .ok [37, 122, 122, 97] :=
  unescape_keeps (by decide) (by decide) (by decide) (by decide) (by decide)
    (unescape_inverts (.plain (by decide) .nil))

/-- C47, finding: texts that are not escapes are decoded too, because `strtol` skips blanks and
takes a sign: "%+5" and "% 5" give the byte 5, "%-1" the byte 255. -/
theorem unescape_lenient_false :
    unescapeURI [37, 43, 53] = .ok [5] ∧ unescapeURI [37, 32, 53] = .ok [5] ∧ unescapeURI [37, 45, 49] = .ok [255] := by
  have h1 : escapeSeq 43 53 = [5] := by decide
  have h2 : escapeSeq 32 53 = [5] := by decide
  have h3 : escapeSeq 45 49 = [255] := by decide
  refine ⟨?_, ?_, ?_⟩ <;> simp [unescapeURI, h1, h2, h3]

end Verif.Uri
