import Verif.Base64.Model
import Verif.Base64.Spec

namespace Verif.B64
open Verif.B64Spec

/-! ## Bit arithmetic, by complete tables over one byte -/

theorem forall_byte {p : UInt8 → Prop} (h : ∀ n : Fin 256, p (UInt8.ofNat n.val)) (b : UInt8) : p b := by
  have := h ⟨b.toNat, b.toNat_lt⟩
  simpa using this

theorem hi6 (a : UInt8) : (a &&& 0xFC) >>> 2 = UInt8.ofNat (a.toNat / 4) :=
  forall_byte (p := fun a => (a &&& 0xFC) >>> 2 = UInt8.ofNat (a.toNat / 4)) (by decide +kernel) a
theorem lo2 (a : UInt8) : (a &&& 0x03) <<< 4 = UInt8.ofNat (a.toNat % 4 * 16) :=
  forall_byte (p := fun a => (a &&& 0x03) <<< 4 = UInt8.ofNat (a.toNat % 4 * 16)) (by decide +kernel) a
theorem hi4 (a : UInt8) : (a &&& 0xF0) >>> 4 = UInt8.ofNat (a.toNat / 16) :=
  forall_byte (p := fun a => (a &&& 0xF0) >>> 4 = UInt8.ofNat (a.toNat / 16)) (by decide +kernel) a
theorem lo4 (a : UInt8) : (a &&& 0x0F) <<< 2 = UInt8.ofNat (a.toNat % 16 * 4) :=
  forall_byte (p := fun a => (a &&& 0x0F) <<< 2 = UInt8.ofNat (a.toNat % 16 * 4)) (by decide +kernel) a
theorem hi2 (a : UInt8) : (a &&& 0xC0) >>> 6 = UInt8.ofNat (a.toNat / 64) :=
  forall_byte (p := fun a => (a &&& 0xC0) >>> 6 = UInt8.ofNat (a.toNat / 64)) (by decide +kernel) a
theorem lo6 (a : UInt8) : (a &&& 0x3F) = UInt8.ofNat (a.toNat % 64) :=
  forall_byte (p := fun a => (a &&& 0x3F) = UInt8.ofNat (a.toNat % 64)) (by decide +kernel) a

theorem or16 (i j : Nat) (hi : i < 16) (hj : j < 16) :
    UInt8.ofNat (i * 16) ||| UInt8.ofNat j = UInt8.ofNat (i * 16 + j) := by
  have : ∀ (i j : Fin 16), UInt8.ofNat (i.val * 16) ||| UInt8.ofNat j.val = UInt8.ofNat (i.val * 16 + j.val) := by
    decide +kernel
  exact this ⟨i, hi⟩ ⟨j, hj⟩
theorem or4 (i j : Nat) (hi : i < 64) (hj : j < 4) :
    UInt8.ofNat (i * 4) ||| UInt8.ofNat j = UInt8.ofNat (i * 4 + j) := by
  have : ∀ (i : Fin 64) (j : Fin 4), UInt8.ofNat (i.val * 4) ||| UInt8.ofNat j.val = UInt8.ofNat (i.val * 4 + j.val) := by
    decide +kernel
  exact this ⟨i, hi⟩ ⟨j, hj⟩
theorem or64 (i j : Nat) (hi : i < 4) (hj : j < 64) :
    UInt8.ofNat (i * 64) ||| UInt8.ofNat j = UInt8.ofNat (i * 64 + j) := by
  have : ∀ (i : Fin 4) (j : Fin 64), UInt8.ofNat (i.val * 64) ||| UInt8.ofNat j.val = UInt8.ofNat (i.val * 64 + j.val) := by
    decide +kernel
  exact this ⟨i, hi⟩ ⟨j, hj⟩

theorem pushValue_digit (n : Nat) (h : n < 64) : pushValue (UInt8.ofNat n) = .ok (digit n) := by
  have : ∀ n : Fin 64, pushValue (UInt8.ofNat n.val) = .ok (digit n.val) := by decide +kernel
  exact this ⟨n, h⟩

theorem decodeChar_digit (n : Nat) (h : n < 64) :
    decodeChar (digit n) = .ok (some (UInt8.ofNat n)) := by
  have : ∀ n : Fin 64, decodeChar (digit n.val) = .ok (some (UInt8.ofNat n.val)) := by decide +kernel
  exact this ⟨n, h⟩

theorem decodeChar_pad : decodeChar 61 = .ok none := by decide +kernel
theorem decodeChar_nl : decodeChar 10 = .ok none := by decide +kernel

theorem digit_ne_nl (n : Nat) (h : n < 64) : digit n ≠ 10 := by
  have : ∀ n : Fin 64, digit n.val ≠ 10 := by decide +kernel
  exact this ⟨n, h⟩

/-! ## The iterator -/

/-- Bytes still to be read. -/
def It.flat (i : It) : Bytes :=
  match i.slabs with
  | [] => []
  | s :: rest => s.drop i.offset ++ rest.flatten

/-- All slabs non-empty and the offset inside the current slab. -/
def It.wf (i : It) : Prop :=
  (∀ s ∈ i.slabs, s ≠ []) ∧ ∀ s rest, i.slabs = s :: rest → i.offset < s.length

theorem It.isEnd_iff {i : It} (h : i.wf) : i.isEnd = true ↔ i.flat = [] := by
  unfold It.isEnd It.flat
  cases hs : i.slabs with
  | nil => simp
  | cons s rest =>
    have := h.2 s rest hs
    simp; omega

theorem It.next_flat {i : It} (h : i.wf) {b : UInt8} {t : Bytes} (hf : i.flat = b :: t) :
    ∃ j, i.next = .ok (b, j) ∧ j.wf ∧ j.flat = t := by
  unfold It.flat at hf
  cases hs : i.slabs with
  | nil => simp [hs] at hf
  | cons s rest =>
    simp only [hs] at hf
    have hlt := h.2 s rest hs
    have hne := h.1
    rw [hs] at hne
    rw [List.drop_eq_getElem_cons hlt] at hf
    simp only [List.cons_append, List.cons.injEq] at hf
    obtain ⟨hb, ht⟩ := hf
    have hget : s[i.offset]? = some b := by rw [List.getElem?_eq_getElem hlt, hb]
    unfold It.next
    simp only [hs, hget]
    refine ⟨_, rfl, ?_, ?_⟩
    · split
      · refine ⟨fun s' hs' => hne s' (by simp at hs'; simp [hs']), ?_⟩
        intro s' r' e
        have := hne s' (by simp at e; simp [e])
        simp; exact List.length_pos_iff.2 this
      · refine ⟨fun s' hs' => hne s' (by simpa using hs'), ?_⟩
        intro s' r' e
        simp at e; obtain ⟨rfl, _⟩ := e; simp; omega
    · split
      · rename_i hge
        rw [List.drop_eq_nil_of_le hge] at ht
        simp only [It.flat]
        cases rest with
        | nil => simpa using ht
        | cons a as => simpa using ht
      · simpa [It.flat] using ht

theorem It.init_wf {iov : List Bytes} (h : ∀ s ∈ iov, s ≠ []) : (It.mk iov 0).wf := by
  refine ⟨h, ?_⟩
  intro s r e
  have := h s (by simp at e; simp [e])
  simp; exact List.length_pos_iff.2 this

theorem It.init_flat (iov : List Bytes) : (It.mk iov 0).flat = iov.flatten := by
  cases iov <;> simp [It.flat]

/-! ## The encoder on flat bytes -/

/-- Text with line breaks, as a function of the flat input. -/
def encFlat (cpl : Nat) (sc : Nat) : Bytes → Bytes
  | [] => []
  | [a] => [digit (a.toNat / 4), digit (a.toNat % 4 * 16), 61, 61]
  | [a, b] => [digit (a.toNat / 4), digit (a.toNat % 4 * 16 + b.toNat / 16),
      digit (b.toNat % 16 * 4), 61]
  | a :: b :: c :: rest =>
    digit (a.toNat / 4) :: digit (a.toNat % 4 * 16 + b.toNat / 16) ::
      digit (b.toNat % 16 * 4 + c.toNat / 64) :: digit (c.toNat % 64) ::
      (if 0 < cpl ∧ sc + 1 = cpl / 4 then 10 :: encFlat cpl 0 rest else encFlat cpl (sc + 1) rest)

theorem encodeLoop_eq (cpl : Nat) (i : It) (sc : Nat) :
    encodeLoop cpl i sc = (if i.isEnd then .ok [] else i.next >>= fun p1 => do
      let c1 ← pushValue ((p1.1 &&& 0xFC) >>> 2)
      let r := (p1.1 &&& 0x03) <<< 4
      if p1.2.isEnd then
        let c2 ← pushValue r
        return [c1, c2, 0x3d, 0x3d]
      else p1.2.next >>= fun p2 => do
        let c2 ← pushValue (r ||| ((p2.1 &&& 0xF0) >>> 4))
        let r := (p2.1 &&& 0x0F) <<< 2
        if p2.2.isEnd then
          let c3 ← pushValue r
          return [c1, c2, c3, 0x3d]
        else p2.2.next >>= fun p3 => do
          let c3 ← pushValue (r ||| ((p3.1 &&& 0xC0) >>> 6))
          let c4 ← pushValue (p3.1 &&& 0x3F)
          if 0 < cpl ∧ sc + 1 = cpl / 4 then
            let rest ← encodeLoop cpl p3.2 0
            return c1 :: c2 :: c3 :: c4 :: 0x0a :: rest
          else
            let rest ← encodeLoop cpl p3.2 (sc + 1)
            return c1 :: c2 :: c3 :: c4 :: rest) := by
  rw [encodeLoop]
  split
  · rfl
  · split
    · rename_i h; simp [h]
    · rename_i h; simp [h]
    · rename_i a i1 h
      simp only [h, Out.bind_ok]
      congr 1; funext c1
      split
      · rfl
      · split
        · rename_i h; simp [h]
        · rename_i h; simp [h]
        · rename_i b i2 h
          simp only [h, Out.bind_ok]
          congr 1; funext c2
          split
          · rfl
          · split
            · rename_i h; simp [h]
            · rename_i h; simp [h]
            · rename_i c i3 h
              simp only [h, Out.bind_ok]

theorem encodeLoop_flat (cpl : Nat) (l : Bytes) (sc : Nat) (i : It) (hw : i.wf) (hf : i.flat = l) :
    encodeLoop cpl i sc = .ok (encFlat cpl sc l) := by
  induction sc, l using encFlat.induct generalizing i with
  | case1 sc =>
    have he : i.isEnd = true := (It.isEnd_iff hw).2 hf
    rw [encodeLoop_eq]; simp [he, encFlat]
  | case2 sc a =>
    have he : i.isEnd = false := by
      have := It.isEnd_iff hw; simp [hf] at this; simpa using this
    obtain ⟨i1, h1, w1, f1⟩ := It.next_flat hw hf
    have he1 : i1.isEnd = true := (It.isEnd_iff w1).2 f1
    have ha := a.toNat_lt
    rw [encodeLoop_eq]; simp only [he, Bool.false_eq_true, if_false, if_true, Out.bind_ok, h1, he1, hi6, lo2]
    rw [pushValue_digit _ (by omega), pushValue_digit _ (by omega)]
    simp [encFlat]
  | case3 sc a b =>
    have he : i.isEnd = false := by
      have := It.isEnd_iff hw; simp [hf] at this; simpa using this
    obtain ⟨i1, h1, w1, f1⟩ := It.next_flat hw hf
    have he1 : i1.isEnd = false := by
      have := It.isEnd_iff w1; simp [f1] at this; simpa using this
    obtain ⟨i2, h2, w2, f2⟩ := It.next_flat w1 f1
    have he2 : i2.isEnd = true := (It.isEnd_iff w2).2 f2
    have ha := a.toNat_lt
    have hb := b.toNat_lt
    rw [encodeLoop_eq]; simp only [he, Bool.false_eq_true, if_false, if_true, Out.bind_ok, h1, he1, h2, he2, hi6, lo2, hi4, lo4]
    rw [or16 _ _ (by omega) (by omega), pushValue_digit _ (by omega),
      pushValue_digit _ (by omega), pushValue_digit _ (by omega)]
    simp [encFlat]
  | case4 sc a b c rest ih1 ih2 =>
    have he : i.isEnd = false := by
      have := It.isEnd_iff hw; simp [hf] at this; simpa using this
    obtain ⟨i1, h1, w1, f1⟩ := It.next_flat hw hf
    have he1 : i1.isEnd = false := by
      have := It.isEnd_iff w1; simp [f1] at this; simpa using this
    obtain ⟨i2, h2, w2, f2⟩ := It.next_flat w1 f1
    have he2 : i2.isEnd = false := by
      have := It.isEnd_iff w2; simp [f2] at this; simpa using this
    obtain ⟨i3, h3, w3, f3⟩ := It.next_flat w2 f2
    have ha := a.toNat_lt
    have hb := b.toNat_lt
    have hc := c.toNat_lt
    rw [encodeLoop_eq]; simp only [he, Bool.false_eq_true, if_false, if_true, Out.bind_ok, h1, he1, h2, he2, h3, hi6, lo2, hi4, lo4, hi2, lo6]
    rw [or16 _ _ (by omega) (by omega), pushValue_digit _ (by omega),
      pushValue_digit _ (by omega), pushValue_digit (c.toNat % 64) (by omega)]
    have e4 : UInt8.ofNat (b.toNat % 16 * 4) ||| UInt8.ofNat (c.toNat / 64)
        = UInt8.ofNat (b.toNat % 16 * 4 + c.toNat / 64) := or4 _ _ (by omega) (by omega)
    rw [e4, pushValue_digit _ (by omega)]
    simp only [encFlat]
    by_cases hcond : 0 < cpl ∧ sc + 1 = cpl / 4
    · simp [hcond, ih1 i3 w3 f3]
    · simp [hcond, ih2 i3 w3 f3]

theorem encode_flat (iov : List Bytes) (cpl : Nat) (h : ∀ s ∈ iov, s ≠ []) :
    encode iov cpl = .ok (if 0 < cpl then encFlat cpl 0 iov.flatten ++ [10] else encFlat cpl 0 iov.flatten) := by
  unfold encode
  rw [encodeLoop_flat cpl _ 0 _ (It.init_wf h) (It.init_flat iov)]
  split <;> simp_all

/-! ## Decoding -/

theorem decodeFrom_skip (ph : Phase) (x : UInt8) (xs : Bytes) (h : decodeChar x = .ok none) :
    decodeFrom ph (x :: xs) = decodeFrom ph xs := by
  cases ph <;> simp [decodeFrom, h]

theorem decodeFrom_some (ph : Phase) (x : UInt8) (f : UInt8) (xs : Bytes)
    (h : decodeChar x = .ok (some f)) :
    decodeFrom ph (x :: xs) = match ph with
      | .a => decodeFrom (.b ((f &&& 0x3f) <<< 2)) xs
      | .b r => do
        let rest ← decodeFrom (.c ((f &&& 0x0f) <<< 4)) xs
        return (r ||| ((f &&& 0x30) >>> 4)) :: rest
      | .c r => do
        let rest ← decodeFrom (.d ((f &&& 0x03) <<< 6)) xs
        return (r ||| ((f &&& 0x3c) >>> 2)) :: rest
      | .d r => do
        let rest ← decodeFrom .a xs
        return (r ||| (f &&& 0x3f)) :: rest := by
  cases ph <;> simp [decodeFrom, h]

theorem d_a (n : Nat) (h : n < 64) : (UInt8.ofNat n &&& 0x3f) <<< 2 = UInt8.ofNat (n * 4) := by
  have : ∀ n : Fin 64, (UInt8.ofNat n.val &&& 0x3f) <<< 2 = UInt8.ofNat (n.val * 4) := by decide +kernel
  exact this ⟨n, h⟩
theorem d_b1 (n : Nat) (h : n < 64) : (UInt8.ofNat n &&& 0x30) >>> 4 = UInt8.ofNat (n / 16) := by
  have : ∀ n : Fin 64, (UInt8.ofNat n.val &&& 0x30) >>> 4 = UInt8.ofNat (n.val / 16) := by decide +kernel
  exact this ⟨n, h⟩
theorem d_b2 (n : Nat) (h : n < 64) : (UInt8.ofNat n &&& 0x0f) <<< 4 = UInt8.ofNat (n % 16 * 16) := by
  have : ∀ n : Fin 64, (UInt8.ofNat n.val &&& 0x0f) <<< 4 = UInt8.ofNat (n.val % 16 * 16) := by decide +kernel
  exact this ⟨n, h⟩
theorem d_c1 (n : Nat) (h : n < 64) : (UInt8.ofNat n &&& 0x3c) >>> 2 = UInt8.ofNat (n / 4) := by
  have : ∀ n : Fin 64, (UInt8.ofNat n.val &&& 0x3c) >>> 2 = UInt8.ofNat (n.val / 4) := by decide +kernel
  exact this ⟨n, h⟩
theorem d_c2 (n : Nat) (h : n < 64) : (UInt8.ofNat n &&& 0x03) <<< 6 = UInt8.ofNat (n % 4 * 64) := by
  have : ∀ n : Fin 64, (UInt8.ofNat n.val &&& 0x03) <<< 6 = UInt8.ofNat (n.val % 4 * 64) := by decide +kernel
  exact this ⟨n, h⟩
theorem d_d (n : Nat) (h : n < 64) : (UInt8.ofNat n &&& 0x3f) = UInt8.ofNat n := by
  have : ∀ n : Fin 64, (UInt8.ofNat n.val &&& 0x3f) = UInt8.ofNat n.val := by decide +kernel
  exact this ⟨n, h⟩

/-- Decoding one full group of four characters. -/
theorem decode_group4 (a b c : UInt8) (t : Bytes) :
    decodeFrom .a (digit (a.toNat / 4) :: digit (a.toNat % 4 * 16 + b.toNat / 16) ::
      digit (b.toNat % 16 * 4 + c.toNat / 64) :: digit (c.toNat % 64) :: t)
    = (do let rest ← decodeFrom .a t; return a :: b :: c :: rest) := by
  have ha := a.toNat_lt
  have hb := b.toNat_lt
  have hc := c.toNat_lt
  rw [decodeFrom_some _ _ _ _ (decodeChar_digit _ (by omega))]
  simp only
  rw [decodeFrom_some _ _ _ _ (decodeChar_digit _ (by omega))]
  simp only
  rw [decodeFrom_some _ _ _ _ (decodeChar_digit _ (by omega))]
  simp only
  rw [decodeFrom_some _ _ _ _ (decodeChar_digit _ (by omega))]
  simp only
  rw [d_a _ (by omega), d_b1 _ (by omega), d_b2 _ (by omega), d_c1 _ (by omega), d_c2 _ (by omega),
    d_d _ (by omega), or4 _ _ (by omega) (by omega), or16 _ _ (by omega) (by omega),
    or64 _ _ (by omega) (by omega)]
  have e1 : UInt8.ofNat (a.toNat / 4 * 4 + (a.toNat % 4 * 16 + b.toNat / 16) / 16) = a := by
    rw [show a.toNat / 4 * 4 + (a.toNat % 4 * 16 + b.toNat / 16) / 16 = a.toNat by omega]; simp
  have e2 : UInt8.ofNat ((a.toNat % 4 * 16 + b.toNat / 16) % 16 * 16 +
      (b.toNat % 16 * 4 + c.toNat / 64) / 4) = b := by
    rw [show (a.toNat % 4 * 16 + b.toNat / 16) % 16 * 16 +
      (b.toNat % 16 * 4 + c.toNat / 64) / 4 = b.toNat by omega]; simp
  have e3 : UInt8.ofNat ((b.toNat % 16 * 4 + c.toNat / 64) % 4 * 64 + c.toNat % 64) = c := by
    rw [show (b.toNat % 16 * 4 + c.toNat / 64) % 4 * 64 + c.toNat % 64 = c.toNat by omega]; simp
  rw [e1, e2, e3]
  cases decodeFrom .a t <;> rfl

theorem decode_encFlat (cpl sc : Nat) (l t : Bytes) (ht : ∀ ph, decodeFrom ph t = .ok []) :
    decodeFrom .a (encFlat cpl sc l ++ t) = .ok l := by
  induction sc, l using encFlat.induct generalizing t with
  | case1 sc => simpa [encFlat] using ht .a
  | case2 sc a =>
    have ha := a.toNat_lt
    simp only [encFlat, List.cons_append, List.nil_append]
    rw [decodeFrom_some _ _ _ _ (decodeChar_digit _ (by omega))]
    simp only
    rw [decodeFrom_some _ _ _ _ (decodeChar_digit _ (by omega))]
    simp only
    rw [decodeFrom_skip _ _ _ decodeChar_pad, decodeFrom_skip _ _ _ decodeChar_pad, ht]
    rw [d_a _ (by omega), d_b1 _ (by omega), or4 _ _ (by omega) (by omega)]
    rw [show a.toNat / 4 * 4 + (a.toNat % 4 * 16) / 16 = a.toNat by omega]; simp
  | case3 sc a b =>
    have ha := a.toNat_lt
    have hb := b.toNat_lt
    simp only [encFlat, List.cons_append, List.nil_append]
    rw [decodeFrom_some _ _ _ _ (decodeChar_digit _ (by omega))]
    simp only
    rw [decodeFrom_some _ _ _ _ (decodeChar_digit _ (by omega))]
    simp only
    rw [decodeFrom_some _ _ _ _ (decodeChar_digit _ (by omega))]
    simp only
    rw [decodeFrom_skip _ _ _ decodeChar_pad, ht]
    rw [d_a _ (by omega), d_b1 _ (by omega), d_b2 _ (by omega), d_c1 _ (by omega),
      or4 _ _ (by omega) (by omega), or16 _ _ (by omega) (by omega)]
    rw [show a.toNat / 4 * 4 + (a.toNat % 4 * 16 + b.toNat / 16) / 16 = a.toNat by omega,
      show (a.toNat % 4 * 16 + b.toNat / 16) % 16 * 16 + (b.toNat % 16 * 4) / 4 = b.toNat by omega]
    simp
  | case4 sc a b c rest ih1 ih2 =>
    simp only [encFlat, List.cons_append]
    rw [decode_group4]
    by_cases hcond : 0 < cpl ∧ sc + 1 = cpl / 4
    · simp only [hcond, and_self, if_true, List.cons_append]
      rw [decodeFrom_skip _ _ _ decodeChar_nl, ih1 t ht]; rfl
    · simp only [hcond, if_false]
      rw [ih2 t ht]; rfl

/-! ## Lengths -/

theorem encFlat_length_cpl0 (l : Bytes) (sc : Nat) :
    (encFlat 0 sc l).length = 4 * ((l.length + 2) / 3) := by
  induction sc, l using encFlat.induct with
  | case1 => simp [encFlat]
  | case2 => simp [encFlat]
  | case3 => simp [encFlat]
  | case4 sc a b c rest _ ih2 =>
    have := ih2
    simp [encFlat, this]; omega

/-- Length with line breaks: one break for each `m = cpl/4` full groups. -/
theorem encFlat_length (cpl : Nat) (l : Bytes) (sc : Nat) (hc : 0 < cpl) (hm : 0 < cpl / 4)
    (hsc : sc < cpl / 4) :
    (encFlat cpl sc l).length = 4 * ((l.length + 2) / 3) + (l.length / 3 + sc) / (cpl / 4) := by
  induction sc, l using encFlat.induct with
  | case1 => simp [encFlat, Nat.div_eq_of_lt hsc]
  | case2 => simp [encFlat, Nat.div_eq_of_lt hsc]
  | case3 => simp [encFlat, Nat.div_eq_of_lt hsc]
  | case4 sc a b c rest ih1 ih2 =>
    by_cases hcond : 0 < cpl ∧ sc + 1 = cpl / 4
    · have := ih1 hm
      simp only [encFlat, hcond, and_self, if_true, List.length_cons, this]
      have e : (rest.length + 1 + 1 + 1) / 3 + sc = rest.length / 3 + cpl / 4 := by omega
      rw [e, Nat.add_div_right _ hm]; simp; omega
    · have := ih2 (by simp [hc] at hcond; omega)
      simp only [encFlat, hcond, if_false, List.length_cons, this]
      have e : (rest.length + 1 + 1 + 1) / 3 + sc = rest.length / 3 + (sc + 1) := by omega
      rw [e]; omega

theorem encFlat_length_small (cpl : Nat) (l : Bytes) (sc : Nat) (hm : cpl / 4 = 0) :
    (encFlat cpl sc l).length = 4 * ((l.length + 2) / 3) := by
  induction sc, l using encFlat.induct with
  | case1 => simp [encFlat]
  | case2 => simp [encFlat]
  | case3 => simp [encFlat]
  | case4 sc a b c rest _ ih2 =>
    have hcond : ¬ (0 < cpl ∧ sc + 1 = cpl / 4) := by omega
    have := ih2
    simp only [encFlat, hcond, if_false, List.length_cons, this]; omega

end Verif.B64
