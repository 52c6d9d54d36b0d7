import Verif.Xml.Model
/-!
# Which bytes are XML characters

`xmlChars` (Xml/Model, what libxml2 accepts) is the UTF-8 of the characters of XML 1.0, production 2.
-/

namespace Verif.Xml
open Verif

/-- UTF-8 (RFC 3629, section 3). -/
def enc (c : Nat) : Bytes :=
  if c < 0x80 then [UInt8.ofNat c]
  else if c < 0x800 then [UInt8.ofNat (0xC0 + c / 64), UInt8.ofNat (0x80 + c % 64)]
  else if c < 0x10000 then [UInt8.ofNat (0xE0 + c / 4096), UInt8.ofNat (0x80 + c / 64 % 64), UInt8.ofNat (0x80 + c % 64)]
  else [UInt8.ofNat (0xF0 + c / 262144), UInt8.ofNat (0x80 + c / 4096 % 64), UInt8.ofNat (0x80 + c / 64 % 64), UInt8.ofNat (0x80 + c % 64)]

/-- XML 1.0, production 2: tab, line feed, carriage return, and everything from the blank on without surrogates, U+FFFE and U+FFFF. -/
def XmlChar (c : Nat) : Prop :=
  c = 9 ∨ c = 10 ∨ c = 13 ∨ (0x20 ≤ c ∧ c ≤ 0xD7FF) ∨ (0xE000 ≤ c ∧ c ≤ 0xFFFD) ∨ (0x10000 ≤ c ∧ c ≤ 0x10FFFF)

theorem u8 {n : Nat} (h : n < 256) : (UInt8.ofNat n).toNat = n := by
  rw [UInt8.toNat_ofNat']; exact Nat.mod_eq_of_lt h

theorem cont_iff (c : UInt8) : cont c = true ↔ 128 ≤ c.toNat ∧ c.toNat < 192 := by
  simp only [cont, Bool.and_eq_true, decide_eq_true_eq, UInt8.le_iff_toNat_le, show (128 : UInt8).toNat = 128 from rfl, show (191 : UInt8).toNat = 191 from rfl]
  omega

theorem byte_ext {a : UInt8} {n : Nat} (h : a.toNat = n) : a = UInt8.ofNat n := by
  subst h; simp

/-- The conditions on the bytes of one character, as numbers. -/
theorem chars_cons (a : UInt8) (r : Bytes) : xmlChars (a :: r) = true ↔
    (a.toNat < 128 ∧ (32 ≤ a.toNat ∨ a.toNat = 9 ∨ a.toNat = 10 ∨ a.toNat = 13) ∧ xmlChars r = true) ∨
    (194 ≤ a.toNat ∧ a.toNat < 224 ∧ ∃ b r', r = b :: r' ∧ 128 ≤ b.toNat ∧ b.toNat < 192 ∧ xmlChars r' = true) ∨
    (224 ≤ a.toNat ∧ a.toNat < 240 ∧ ∃ b c r', r = b :: c :: r' ∧ 128 ≤ b.toNat ∧ b.toNat < 192 ∧ 128 ≤ c.toNat ∧ c.toNat < 192 ∧
      (a.toNat = 224 → 160 ≤ b.toNat) ∧ (a.toNat = 237 → b.toNat < 160) ∧ ¬ (a.toNat = 239 ∧ b.toNat = 191 ∧ 190 ≤ c.toNat) ∧ xmlChars r' = true) ∨
    (240 ≤ a.toNat ∧ a.toNat < 245 ∧ ∃ b c d r', r = b :: c :: d :: r' ∧ 128 ≤ b.toNat ∧ b.toNat < 192 ∧ 128 ≤ c.toNat ∧ c.toNat < 192 ∧
      128 ≤ d.toNat ∧ d.toNat < 192 ∧ (a.toNat = 240 → 144 ≤ b.toNat) ∧ (a.toNat = 244 → b.toNat < 144) ∧ xmlChars r' = true) := by
  have lt : ∀ (x : UInt8) (n : UInt8), (x < n) ↔ x.toNat < n.toNat := fun x n => UInt8.lt_iff_toNat_lt
  have eqv : ∀ (x n : UInt8), (x = n) ↔ x.toNat = n.toNat := fun x n => by rw [UInt8.toNat_inj]
  have ge : ∀ (x n : UInt8), (x ≥ n) ↔ n.toNat ≤ x.toNat := fun x n => UInt8.le_iff_toNat_le
  rw [xmlChars.eq_def (a :: r)]
  dsimp only
  split
  · rename_i h
    simp only [lt, show (128 : UInt8).toNat = 128 from rfl] at h
    simp only [Bool.and_eq_true, Bool.or_eq_true, decide_eq_true_eq, beq_iff_eq, ge, eqv, show (32 : UInt8).toNat = 32 from rfl,
      show (9 : UInt8).toNat = 9 from rfl, show (10 : UInt8).toNat = 10 from rfl, show (13 : UInt8).toNat = 13 from rfl]
    constructor
    · rintro ⟨h1, h2⟩
      exact .inl ⟨h, by omega, h2⟩
    · rintro (⟨_, h1, h2⟩ | ⟨h1, _⟩ | ⟨h1, _⟩ | ⟨h1, _⟩)
      · exact ⟨by omega, h2⟩
      all_goals omega
  · rename_i h
    simp only [lt, show (128 : UInt8).toNat = 128 from rfl] at h
    split
    · rename_i h1
      simp only [lt, show (194 : UInt8).toNat = 194 from rfl] at h1
      constructor
      · nofun
      · rintro (⟨h2, _⟩ | ⟨h2, _⟩ | ⟨h2, _⟩ | ⟨h2, _⟩) <;> omega
    · rename_i h1
      simp only [lt, show (194 : UInt8).toNat = 194 from rfl] at h1
      split
      · rename_i h2
        simp only [lt, show (224 : UInt8).toNat = 224 from rfl] at h2
        constructor
        · intro hx
          cases r with
          | nil => cases hx
          | cons b r =>
            simp only [Bool.and_eq_true, cont_iff] at hx
            exact .inr (.inl ⟨by omega, h2, b, r, rfl, hx.1.1, hx.1.2, hx.2⟩)
        · rintro (⟨h3, _⟩ | ⟨_, _, b, r', rfl, h3, h4, h5⟩ | ⟨h3, _⟩ | ⟨h3, _⟩)
          · omega
          · simp only [Bool.and_eq_true, cont_iff]; exact ⟨⟨h3, h4⟩, h5⟩
          all_goals omega
      · rename_i h2
        simp only [lt, show (224 : UInt8).toNat = 224 from rfl] at h2
        split
        · rename_i h3
          simp only [lt, show (240 : UInt8).toNat = 240 from rfl] at h3
          constructor
          · intro hx
            rcases r with _ | ⟨b, _ | ⟨c, r⟩⟩
            · cases hx
            · cases hx
            · simp only [Bool.and_eq_true, Bool.or_eq_true, cont_iff, bne_iff_ne, ne_eq, decide_eq_true_eq, ge, lt, eqv, Bool.not_eq_true',
                Bool.and_eq_false_iff, beq_eq_false_iff_ne, decide_eq_false_iff_not, show (224 : UInt8).toNat = 224 from rfl,
                show (160 : UInt8).toNat = 160 from rfl, show (237 : UInt8).toNat = 237 from rfl, show (239 : UInt8).toNat = 239 from rfl,
                show (191 : UInt8).toNat = 191 from rfl, show (190 : UInt8).toNat = 190 from rfl] at hx
              obtain ⟨⟨⟨⟨⟨hb, hc⟩, g1⟩, g2⟩, g3⟩, hr⟩ := hx
              exact .inr (.inr (.inl ⟨by omega, h3, b, c, r, rfl, hb.1, hb.2, hc.1, hc.2, by omega, by omega, by omega, hr⟩))
          · rintro (⟨h4, _⟩ | ⟨_, h4, _⟩ | ⟨_, _, b, c, r', rfl, hb1, hb2, hc1, hc2, g1, g2, g3, hr⟩ | ⟨h4, _⟩)
            · omega
            · omega
            · simp only [Bool.and_eq_true, Bool.or_eq_true, cont_iff, bne_iff_ne, ne_eq, decide_eq_true_eq, ge, lt, eqv, Bool.not_eq_true',
                Bool.and_eq_false_iff, beq_eq_false_iff_ne, decide_eq_false_iff_not, show (224 : UInt8).toNat = 224 from rfl,
                show (160 : UInt8).toNat = 160 from rfl, show (237 : UInt8).toNat = 237 from rfl, show (239 : UInt8).toNat = 239 from rfl,
                show (191 : UInt8).toNat = 191 from rfl, show (190 : UInt8).toNat = 190 from rfl]
              exact ⟨⟨⟨⟨⟨⟨hb1, hb2⟩, hc1, hc2⟩, by omega⟩, by omega⟩, by omega⟩, hr⟩
            · omega
        · rename_i h3
          simp only [lt, show (240 : UInt8).toNat = 240 from rfl] at h3
          split
          · rename_i h4
            simp only [lt, show (245 : UInt8).toNat = 245 from rfl] at h4
            constructor
            · intro hx
              rcases r with _ | ⟨b, _ | ⟨c, _ | ⟨d, r⟩⟩⟩
              · cases hx
              · cases hx
              · cases hx
              · simp only [Bool.and_eq_true, Bool.or_eq_true, cont_iff, bne_iff_ne, ne_eq, decide_eq_true_eq, ge, lt, eqv,
                  show (240 : UInt8).toNat = 240 from rfl, show (144 : UInt8).toNat = 144 from rfl, show (244 : UInt8).toNat = 244 from rfl] at hx
                obtain ⟨⟨⟨⟨⟨hb, hc⟩, hd⟩, g1⟩, g2⟩, hr⟩ := hx
                exact .inr (.inr (.inr ⟨by omega, h4, b, c, d, r, rfl, hb.1, hb.2, hc.1, hc.2, hd.1, hd.2, by omega, by omega, hr⟩))
            · rintro (⟨h5, _⟩ | ⟨_, h5, _⟩ | ⟨_, h5, _⟩ | ⟨_, _, b, c, d, r', rfl, hb1, hb2, hc1, hc2, hd1, hd2, g1, g2, hr⟩)
              · omega
              · omega
              · omega
              · simp only [Bool.and_eq_true, Bool.or_eq_true, cont_iff, bne_iff_ne, ne_eq, decide_eq_true_eq, ge, lt, eqv,
                  show (240 : UInt8).toNat = 240 from rfl, show (144 : UInt8).toNat = 144 from rfl, show (244 : UInt8).toNat = 244 from rfl]
                exact ⟨⟨⟨⟨⟨⟨hb1, hb2⟩, hc1, hc2⟩, hd1, hd2⟩, by omega⟩, by omega⟩, hr⟩
          · rename_i h4
            simp only [lt, show (245 : UInt8).toNat = 245 from rfl] at h4
            constructor
            · nofun
            · rintro (⟨h5, _⟩ | ⟨_, h5, _⟩ | ⟨_, h5, _⟩ | ⟨_, h5, _⟩) <;> omega

theorem chars_enc {c : Nat} (hc : XmlChar c) (r : Bytes) (hr : xmlChars r = true) : xmlChars (enc c ++ r) = true := by
  unfold XmlChar at hc
  unfold enc
  split
  · refine (chars_cons _ _).mpr (.inl ?_)
    rw [u8 (by omega)]
    exact ⟨by omega, by omega, hr⟩
  · split
    · refine (chars_cons _ _).mpr (.inr (.inl ?_))
      rw [u8 (by omega)]
      exact ⟨by omega, by omega, _, r, rfl, by rw [u8 (by omega)]; omega, by rw [u8 (by omega)]; omega, hr⟩
    · split
      · refine (chars_cons _ _).mpr (.inr (.inr (.inl ?_)))
        rw [u8 (by omega)]
        refine ⟨by omega, by omega, _, _, r, rfl, ?_⟩
        rw [u8 (by omega), u8 (by omega)]
        exact ⟨by omega, by omega, by omega, by omega, by omega, by omega, by omega, hr⟩
      · refine (chars_cons _ _).mpr (.inr (.inr (.inr ?_)))
        rw [u8 (by omega)]
        refine ⟨by omega, by omega, _, _, _, r, rfl, ?_⟩
        rw [u8 (by omega), u8 (by omega), u8 (by omega)]
        exact ⟨by omega, by omega, by omega, by omega, by omega, by omega, by omega, by omega, hr⟩

theorem chars_dec (n : Nat) : ∀ b : Bytes, b.length ≤ n → xmlChars b = true → ∃ cs : List Nat, (∀ c ∈ cs, XmlChar c) ∧ b = cs.flatMap enc := by
  induction n with
  | zero => intro b hb _; exact ⟨[], nofun, by cases b <;> simp at hb ⊢⟩
  | succ n ih =>
    intro b hb h
    have add : ∀ {c : Nat} {r b : Bytes}, XmlChar c → b = enc c ++ r → (∃ cs : List Nat, (∀ c ∈ cs, XmlChar c) ∧ r = cs.flatMap enc) →
        ∃ cs : List Nat, (∀ c ∈ cs, XmlChar c) ∧ b = cs.flatMap enc := by
      rintro c r b hc rfl ⟨cs, h1, rfl⟩
      refine ⟨c :: cs, fun x hx => ?_, by simp⟩
      rcases List.mem_cons.mp hx with rfl | hx
      · exact hc
      · exact h1 x hx
    cases b with
    | nil => exact ⟨[], nofun, rfl⟩
    | cons a r =>
      simp only [List.length_cons] at hb
      rcases (chars_cons a r).mp h with ⟨h1, h2, hr⟩ | ⟨h1, h2, b, r', rfl, b1, b2, hr⟩ |
        ⟨h1, h2, b, c, r', rfl, b1, b2, c1, c2, g1, g2, g3, hr⟩ | ⟨h1, h2, b, c, d, r', rfl, b1, b2, c1, c2, d1, d2, g1, g2, hr⟩
      · refine add (c := a.toNat) (by unfold XmlChar; omega) ?_ (ih r (by omega) hr)
        rw [enc, if_pos h1]
        simp
      · simp only [List.length_cons] at hb
        refine add (c := (a.toNat - 192) * 64 + (b.toNat - 128)) (by unfold XmlChar; omega) ?_ (ih r' (by omega) hr)
        rw [enc, if_neg (by omega), if_pos (by omega), byte_ext (a := a) (n := 0xC0 + ((a.toNat - 192) * 64 + (b.toNat - 128)) / 64) (by omega),
          byte_ext (a := b) (n := 0x80 + ((a.toNat - 192) * 64 + (b.toNat - 128)) % 64) (by omega)]
        simp only [← byte_ext (a := a) (n := 0xC0 + ((a.toNat - 192) * 64 + (b.toNat - 128)) / 64) (by omega),
          ← byte_ext (a := b) (n := 0x80 + ((a.toNat - 192) * 64 + (b.toNat - 128)) % 64) (by omega)]
        rfl
      · simp only [List.length_cons] at hb
        refine add (c := (a.toNat - 224) * 4096 + (b.toNat - 128) * 64 + (c.toNat - 128)) (by unfold XmlChar; omega) ?_ (ih r' (by omega) hr)
        generalize hx : (a.toNat - 224) * 4096 + (b.toNat - 128) * 64 + (c.toNat - 128) = x
        rw [enc, if_neg (by omega), if_neg (by omega), if_pos (by omega)]
        rw [← byte_ext (a := a) (by omega), ← byte_ext (a := b) (by omega), ← byte_ext (a := c) (by omega)]
        rfl
      · simp only [List.length_cons] at hb
        refine add (c := (a.toNat - 240) * 262144 + (b.toNat - 128) * 4096 + (c.toNat - 128) * 64 + (d.toNat - 128)) (by unfold XmlChar; omega) ?_
          (ih r' (by omega) hr)
        generalize hx : (a.toNat - 240) * 262144 + (b.toNat - 128) * 4096 + (c.toNat - 128) * 64 + (d.toNat - 128) = x
        rw [enc, if_neg (by omega), if_neg (by omega), if_neg (by omega)]
        rw [← byte_ext (a := a) (by omega), ← byte_ext (a := b) (by omega), ← byte_ext (a := c) (by omega), ← byte_ext (a := d) (by omega)]
        rfl

/-- The bytes accepted are exactly the UTF-8 of sequences of XML characters. -/
theorem xmlChars_iff (b : Bytes) : xmlChars b = true ↔ ∃ cs : List Nat, (∀ c ∈ cs, XmlChar c) ∧ b = cs.flatMap enc := by
  constructor
  · exact chars_dec b.length b (Nat.le_refl _)
  · rintro ⟨cs, h, rfl⟩
    induction cs with
    | nil => rfl
    | cons c cs ih =>
      rw [List.flatMap_cons]
      exact chars_enc (h c List.mem_cons_self) _ (ih fun x hx => h x (List.mem_cons_of_mem _ hx))

/-- "é€" followed by U+10348. -/
example : xmlChars [0xC3, 0xA9, 0xE2, 0x82, 0xAC, 0xF0, 0x90, 0x8D, 0x88] = true ∧ enc 0x20AC = [0xE2, 0x82, 0xAC] ∧ xmlChars [0xED, 0xA0, 0x80] = false := by
  decide

end Verif.Xml
