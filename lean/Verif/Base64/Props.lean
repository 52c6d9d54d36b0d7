import Verif.Base64.Lemmas
/-!
# C25, C26, C27: base64
-/

namespace Verif.B64
open Verif.B64Spec

/-- C25.  Decoding the text of a blob gives the blob's bytes, for every line length and every
segmentation into non-empty slabs. -/
theorem decode_encode (iov : List Bytes) (cpl : Nat) (h : ∀ s ∈ iov, s ≠ []) :
    (encode iov cpl >>= decode) = .ok iov.flatten := by
  rw [encode_flat iov cpl h, Out.bind_ok]
  unfold decode
  split
  · apply decode_encFlat
    intro ph
    rw [decodeFrom_skip _ _ _ decodeChar_nl]; simp [decodeFrom]
  · have := decode_encFlat cpl 0 iov.flatten [] (by simp [decodeFrom])
    simpa using this

example : (encode [[1, 2], [3, 255], [7]] 4 >>= decode) = .ok [1, 2, 3, 255, 7] :=
  decode_encode _ _ (by decide)

/-- C25.  With its line feeds removed, the text is the RFC 4648 base64 text of the bytes. -/
theorem encode_rfc4648 (iov : List Bytes) (cpl : Nat) (h : ∀ s ∈ iov, s ≠ []) :
    ∃ t, encode iov cpl = .ok t ∧ unwrap t = rfc4648 iov.flatten := by
  have key : ∀ (l : Bytes) (sc : Nat), unwrap (encFlat cpl sc l) = rfc4648 l := by
    intro l sc
    induction sc, l using encFlat.induct with
    | case1 => simp [encFlat, unwrap, rfc4648]
    | case2 sc a =>
      have ha := a.toNat_lt
      have e1 : a.toNat * 65536 / 262144 = a.toNat / 4 := by omega
      have e2 : a.toNat * 65536 / 4096 % 64 = a.toNat % 4 * 16 := by omega
      simp [encFlat, unwrap, rfc4648, e1, e2, digit_ne_nl (a.toNat / 4) (by omega),
        digit_ne_nl (a.toNat % 4 * 16) (by omega)]
    | case3 sc a b =>
      have ha := a.toNat_lt
      have hb := b.toNat_lt
      have e1 : (a.toNat * 65536 + b.toNat * 256) / 262144 = a.toNat / 4 := by omega
      have e2 : (a.toNat * 65536 + b.toNat * 256) / 4096 % 64 = a.toNat % 4 * 16 + b.toNat / 16 := by omega
      have e3 : (a.toNat * 65536 + b.toNat * 256) / 64 % 64 = b.toNat % 16 * 4 := by omega
      simp [encFlat, unwrap, rfc4648, e1, e2, e3, digit_ne_nl (a.toNat / 4) (by omega),
        digit_ne_nl (a.toNat % 4 * 16 + b.toNat / 16) (by omega),
        digit_ne_nl (b.toNat % 16 * 4) (by omega)]
    | case4 sc a b c rest ih1 ih2 =>
      have ha := a.toNat_lt
      have hb := b.toNat_lt
      have hc := c.toNat_lt
      have e1 : (a.toNat * 65536 + b.toNat * 256 + c.toNat) / 262144 = a.toNat / 4 := by omega
      have e2 : (a.toNat * 65536 + b.toNat * 256 + c.toNat) / 4096 % 64
        = a.toNat % 4 * 16 + b.toNat / 16 := by omega
      have e3 : (a.toNat * 65536 + b.toNat * 256 + c.toNat) / 64 % 64
        = b.toNat % 16 * 4 + c.toNat / 64 := by omega
      have e4 : (a.toNat * 65536 + b.toNat * 256 + c.toNat) % 64 = c.toNat % 64 := by omega
      have d1 := digit_ne_nl (a.toNat / 4) (by omega)
      have d2 := digit_ne_nl (a.toNat % 4 * 16 + b.toNat / 16) (by omega)
      have d3 := digit_ne_nl (b.toNat % 16 * 4 + c.toNat / 64) (by omega)
      have d4 := digit_ne_nl (c.toNat % 64) (by omega)
      simp [unwrap] at ih1 ih2
      by_cases hcond : 0 < cpl ∧ sc + 1 = cpl / 4
      · simp [encFlat, unwrap, rfc4648, e1, e2, e3, e4, d1, d2, d3, d4, hcond, ih1]
      · simp [encFlat, unwrap, rfc4648, e1, e2, e3, e4, d1, d2, d3, d4, hcond, ih2]
  refine ⟨_, encode_flat iov cpl h, ?_⟩
  split
  · have := key iov.flatten 0
    simp only [unwrap, List.filter_append] at *
    rw [this]; simp
  · exact key _ _

/-- "Man" is "TWFu" (RFC 4648's own kind of example), through the theorem. -/
example : encode [[77, 97, 110]] 0 = .ok [84, 87, 70, 117] := by decide +kernel

/-- C25.  The text does not depend on how the bytes are cut into non-empty slabs. -/
theorem encode_segmentation (iov iov' : List Bytes) (cpl : Nat) (h : ∀ s ∈ iov, s ≠ [])
    (h' : ∀ s ∈ iov', s ≠ []) (e : iov.flatten = iov'.flatten) :
    encode iov cpl = encode iov' cpl := by
  rw [encode_flat iov cpl h, encode_flat iov' cpl h', e]

example : encode [[1], [2, 3], [4]] 8 = encode [[1, 2, 3, 4]] 8 :=
  encode_segmentation _ _ _ (by decide) (by decide) rfl

/-- C25, finding: a zero-length slab is read as if it held one byte, so encoding an empty
blob is undefined behaviour.  The non-emptiness hypothesis above is necessary. -/
theorem encode_empty_slab_ub (cpl : Nat) (rest : List Bytes) : encode ([] :: rest) cpl = .ub := by
  unfold encode
  rw [encodeLoop_eq]
  simp [It.isEnd, It.next]

theorem toNat_encodeSize (len cpl : UInt32) (h : 4 * len.toNat + 14 < 2 ^ 32) :
    (encodeSize len cpl).toNat =
      if 0 < cpl.toNat then
        (4 * len.toNat / 3 + 4) + 2 * ((4 * len.toNat / 3 + 4) / cpl.toNat + 1)
      else 4 * len.toNat / 3 + 4 + 1 := by
  have hr : ((len * 4) / 3 + 4 : UInt32).toNat = 4 * len.toNat / 3 + 4 := by
    have e : (len * 4).toNat = 4 * len.toNat := by
      rw [UInt32.toNat_mul]; simp; omega
    rw [UInt32.toNat_add, UInt32.toNat_div, e]; simp; omega
  unfold encodeSize
  have hgt : (cpl > 0) ↔ 0 < cpl.toNat := by
    simp [UInt32.lt_iff_toNat_lt]
  by_cases hc : 0 < cpl.toNat
  · simp only [hgt, hc, if_true]
    have hle : (4 * len.toNat / 3 + 4) / cpl.toNat ≤ 4 * len.toNat / 3 + 4 := Nat.div_le_self _ _
    simp only [UInt32.toNat_add, UInt32.toNat_mul, UInt32.toNat_div] at *
    simp only [hr]
    simp
    omega
  · simp only [hgt, hc, if_false]
    rw [UInt32.toNat_add, hr]; simp; omega

/-- C26 (encoding).  The text with its terminator fits in the announced size, for every line
length, up to the input size at which the 32-bit size computation could wrap. -/
theorem encode_fits_partial (iov : List Bytes) (len cpl : UInt32) (h : ∀ s ∈ iov, s ≠ [])
    (hl : iov.flatten.length = len.toNat) (hb : 4 * len.toNat + 14 < 2 ^ 32) :
    ∃ t, encode iov cpl.toNat = .ok t ∧ t.length + 1 ≤ (encodeSize len cpl).toNat := by
  refine ⟨_, encode_flat iov _ h, ?_⟩
  rw [toNat_encodeSize len cpl hb]
  generalize hn : len.toNat = n at *
  generalize hk : cpl.toNat = k at *
  by_cases hc : 0 < k
  · simp only [hc, if_true, List.length_append, List.length_cons, List.length_nil]
    by_cases hm : k / 4 = 0
    · rw [encFlat_length_small _ _ _ hm, hl]
      generalize (4 * n / 3 + 4) / k = e
      omega
    · have hm' : 0 < k / 4 := by omega
      rw [encFlat_length _ _ _ hc hm' hm', hl]
      generalize hM : k / 4 = m at *
      have hq : (n / 3 + 0) / m * m ≤ n / 3 := by simpa using Nat.div_mul_le_self (n / 3) m
      generalize (n / 3 + 0) / m = q at *
      -- res / k is at least 4q/7
      have hk7 : k ≤ 7 * m := by omega
      have h1 : 4 * q / 7 ≤ (4 * n / 3 + 4) / k := by
        rw [Nat.le_div_iff_mul_le hc]
        have a1 : 4 * q / 7 * k ≤ 4 * q / 7 * (7 * m) := Nat.mul_le_mul_left _ hk7
        have a2 : 4 * q / 7 * (7 * m) ≤ 4 * q * m := by
          rw [← Nat.mul_assoc]
          exact Nat.mul_le_mul_right _ (Nat.div_mul_le_self _ _)
        have a3 : 4 * q * m ≤ 4 * (n / 3) := by rw [Nat.mul_assoc]; exact Nat.mul_le_mul_left _ hq
        omega
      omega
  · have : k = 0 := by omega
    subst this
    simp only [Nat.lt_irrefl, if_false]
    rw [encFlat_length_cpl0, hl]; omega

example : ∃ t, encode [[1, 2, 3, 4, 5]] (7 : UInt32).toNat = .ok t ∧
    t.length + 1 ≤ (encodeSize 5 7).toNat :=
  encode_fits_partial [[1, 2, 3, 4, 5]] 5 7 (by decide) (by decide) (by decide)

/-- C26, finding: the size computation wraps.  For a blob of 2^30 bytes only 5 bytes are
announced, but more than a gigabyte is written. -/
theorem encode_fits_false : ∃ (iov : List Bytes) (len : UInt32) (t : Bytes),
    (∀ s ∈ iov, s ≠ []) ∧ iov.flatten.length = len.toNat ∧ encode iov 0 = .ok t ∧
    (encodeSize len 0).toNat < t.length + 1 := by
  refine ⟨[List.replicate (2 ^ 30) 0], UInt32.ofNat (2 ^ 30), _, ?_, ?_, encode_flat _ _ ?_, ?_⟩
  · intro s hs; simp only [List.mem_singleton] at hs; subst hs
    intro h; have := congrArg List.length h; simp only [List.length_replicate] at this
    exact absurd this (by decide)
  · rw [show [List.replicate (2 ^ 30) (0 : UInt8)].flatten = List.replicate (2 ^ 30) 0 from by
      rw [List.flatten_cons, List.flatten_nil, List.append_nil], List.length_replicate]
    decide
  · intro s hs; simp only [List.mem_singleton] at hs; subst hs
    intro h; have := congrArg List.length h; simp only [List.length_replicate] at this
    exact absurd this (by decide)
  · rw [if_neg (by decide), encFlat_length_cpl0,
      show [List.replicate (2 ^ 30) (0 : UInt8)].flatten = List.replicate (2 ^ 30) 0 from by
      rw [List.flatten_cons, List.flatten_nil, List.append_nil], List.length_replicate]
    decide

/-- Every byte other than `{` is handled without leaving the table. -/
theorem decodeChar_defined (b : UInt8) (h : b ≠ 0x7b) : ∃ o, decodeChar b = .ok o := by
  have : ∀ b : UInt8, b ≠ 0x7b → (match decodeChar b with | .ok _ => true | _ => false) = true :=
    forall_byte (p := fun b => b ≠ 0x7b → (match decodeChar b with | .ok _ => true | _ => false) = true)
      (by decide +kernel)
  have := this b h
  split at this
  · exact ⟨_, by assumption⟩
  · cases this

/-- C27.  Decoding any text without the character `{` returns normally. -/
theorem decode_total_partial (t : Bytes) (h : (0x7b : UInt8) ∉ t) : ∃ r, decode t = .ok r := by
  have : ∀ (t : Bytes) (ph : Phase), (0x7b : UInt8) ∉ t → ∃ r, decodeFrom ph t = .ok r := by
    intro t
    induction t with
    | nil => intro ph _; exact ⟨[], by simp [decodeFrom]⟩
    | cons x xs ih =>
      intro ph hx
      simp only [List.mem_cons, not_or] at hx
      obtain ⟨o, ho⟩ := decodeChar_defined x (fun e => hx.1 e.symm)
      cases o with
      | none => rw [decodeFrom_skip _ _ _ ho]; exact ih ph hx.2
      | some f =>
        rw [decodeFrom_some _ _ _ _ ho]
        cases ph with
        | a => exact ih _ hx.2
        | b r =>
          obtain ⟨r', hr⟩ := ih (.c ((f &&& 0x0f) <<< 4)) hx.2
          exact ⟨_, by simp only [hr]; rfl⟩
        | c r =>
          obtain ⟨r', hr⟩ := ih (.d ((f &&& 0x03) <<< 6)) hx.2
          exact ⟨_, by simp only [hr]; rfl⟩
        | d r =>
          obtain ⟨r', hr⟩ := ih .a hx.2
          exact ⟨_, by simp only [hr]; rfl⟩
  exact this t .a h

example : ∃ r, decode [0x54, 0x20, 0x57, 0x0d, 0x46, 0x75, 0x3d] = .ok r :=
  decode_total_partial _ (by decide)

/-- C27, finding: the character `{` makes the decoder read one entry past its table. -/
theorem decode_total_false (t : Bytes) : decode (0x7b :: t) = .ub := by
  have h : decodeChar 0x7b = .ub := by decide +kernel
  simp [decode, decodeFrom, h]

/-- A character of the base64 alphabet, stated without the decoder's table. -/
def isB64 (b : UInt8) : Bool :=
  (65 ≤ b && b ≤ 90) || (97 ≤ b && b ≤ 122) || (48 ≤ b && b ≤ 57) || b == 43 || b == 47

/-- C27.  Characters outside the alphabet (other than `{`) are ignored: removing them does
not change the result. -/
theorem decode_ignores (t : Bytes) (h : (0x7b : UInt8) ∉ t) :
    decode t = decode (t.filter isB64) := by
  have hskip : ∀ b : UInt8, b ≠ 0x7b → isB64 b = false → decodeChar b = .ok none :=
    forall_byte (p := fun b => b ≠ 0x7b → isB64 b = false → decodeChar b = .ok none)
      (by decide +kernel)
  have : ∀ (t : Bytes) (ph : Phase), (0x7b : UInt8) ∉ t →
      decodeFrom ph t = decodeFrom ph (t.filter isB64) := by
    intro t
    induction t with
    | nil => intro ph _; rfl
    | cons x xs ih =>
      intro ph hx
      simp only [List.mem_cons, not_or] at hx
      by_cases hb : isB64 x = true
      · obtain ⟨o, ho⟩ := decodeChar_defined x (fun e => hx.1 e.symm)
        rw [List.filter_cons_of_pos hb]
        cases o with
        | none => rw [decodeFrom_skip _ _ _ ho, decodeFrom_skip _ _ _ ho]; exact ih _ hx.2
        | some f =>
          rw [decodeFrom_some _ _ _ _ ho, decodeFrom_some _ _ _ _ ho]
          cases ph <;> simp only [ih _ hx.2]
      · have hb' : isB64 x = false := by simpa using hb
        rw [List.filter_cons_of_neg hb, decodeFrom_skip _ _ _ (hskip x (fun e => hx.1 e.symm) hb')]
        exact ih _ hx.2
  exact this t .a h

example : decode [0x54, 0x20, 0x57, 0x0a, 0x46, 0x75] = .ok [77, 97, 110] := by
  rw [decode_ignores _ (by decide)]; decide +kernel

/-- C26 (decoding).  At most the announced number of bytes is written, for texts short enough
that the 32-bit computation `len*3` does not wrap. -/
theorem decode_fits_partial (t r : Bytes) (len : UInt32) (hl : t.length = len.toNat)
    (hb : 3 * len.toNat < 2 ^ 32) (h : decode t = .ok r) :
    r.length ≤ (decodeSize len).toNat := by
  have key : ∀ (t : Bytes) (ph : Phase) (r : Bytes), decodeFrom ph t = .ok r →
      match ph with
      | .a => 4 * r.length ≤ 3 * t.length
      | .b _ => 4 * r.length ≤ 3 * t.length + 3
      | .c _ => 4 * r.length ≤ 3 * t.length + 2
      | .d _ => 4 * r.length ≤ 3 * t.length + 1 := by
    intro t
    induction t with
    | nil =>
      intro ph r h
      have : r = [] := by cases ph <;> simp_all [decodeFrom]
      subst this; cases ph <;> simp
    | cons x xs ih =>
      intro ph r h
      cases ho : decodeChar x with
      | throw e => cases ph <;> simp [decodeFrom, ho] at h
      | ub => cases ph <;> simp [decodeFrom, ho] at h
      | ok o =>
        cases o with
        | none =>
          rw [decodeFrom_skip _ _ _ ho] at h
          have := ih ph r h
          cases ph <;> simp only [List.length_cons] at * <;> omega
        | some f =>
          rw [decodeFrom_some _ _ _ _ ho] at h
          cases ph with
          | a => have := ih _ r h; simp only [List.length_cons] at *; omega
          | b r0 =>
            simp only [Out.bind_eq_ok] at h
            obtain ⟨r1, h1, h2⟩ := h
            have := ih _ _ h1
            simp only [Out.pure_eq, Out.ok.injEq] at h2
            subst h2; simp only [List.length_cons] at *; omega
          | c r0 =>
            simp only [Out.bind_eq_ok] at h
            obtain ⟨r1, h1, h2⟩ := h
            have := ih _ _ h1
            simp only [Out.pure_eq, Out.ok.injEq] at h2
            subst h2; simp only [List.length_cons] at *; omega
          | d r0 =>
            simp only [Out.bind_eq_ok] at h
            obtain ⟨r1, h1, h2⟩ := h
            have := ih _ _ h1
            simp only [Out.pure_eq, Out.ok.injEq] at h2
            subst h2; simp only [List.length_cons] at *; omega
  have hk := key t .a r h
  have hs : (decodeSize len).toNat = 3 * len.toNat / 4 + 1 := by
    have e : (len * 3).toNat = 3 * len.toNat := by
      rw [UInt32.toNat_mul]; simp; omega
    unfold decodeSize
    rw [UInt32.toNat_add, UInt32.toNat_div, e]; simp; omega
  rw [hs]; simp only at hk; omega

example : ∃ r, decode [84, 87, 70, 117] = .ok r ∧ r.length ≤ (decodeSize 4).toNat :=
  ⟨[77, 97, 110], by decide +kernel, decode_fits_partial [84, 87, 70, 117] _ 4 rfl (by decide) (by decide +kernel)⟩

end Verif.B64
