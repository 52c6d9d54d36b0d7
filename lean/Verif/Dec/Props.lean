import Verif.Dec.Text
import Verif.Json.RoundTrip
import Verif.Xml.Props
import Verif.Yaml.RoundProps
/-!
# Doubles survive being written as text (C124)
-/

namespace Verif.Dec
open Verif Verif.Num Verif.JsonTok Verif.JsonEmit Verif.JsonDrv

/-! ## Kinds of doubles -/

theorem nonFinite_iff (b : UInt64) : nonFinite b = true ↔ b.toNat / 2 ^ 52 % 2048 = 2047 := by
  unfold nonFinite
  rw [beq_iff_eq, ← UInt64.toNat_inj, UInt64.toNat_and, UInt64.toNat_shiftRight]
  show (b.toNat >>> 52 &&& 2 ^ 11 - 1) = 2047 ↔ _
  rw [Nat.and_two_pow_sub_one_eq_mod, Nat.shiftRight_eq_div_pow]

theorem isNaN_iff (b : UInt64) : Event.isNaN b = true ↔ b.toNat / 2 ^ 52 % 2048 = 2047 ∧ b.toNat % 2 ^ 52 ≠ 0 := by
  unfold Event.isNaN
  rw [Bool.and_eq_true, beq_iff_eq, bne_iff_ne, ne_eq, ← UInt64.toNat_inj, ← UInt64.toNat_inj, UInt64.toNat_and, UInt64.toNat_and]
  have h1 : b.toNat &&& (0x7FF0000000000000 : UInt64).toNat = b.toNat / 2 ^ 52 % 2048 * 2 ^ 52 := by
    have e : (0x7FF0000000000000 : UInt64).toNat = (2 ^ 11 - 1) <<< 52 := by decide
    have e2 : b.toNat / 2 ^ 52 % 2048 * 2 ^ 52 = ((b.toNat >>> 52) &&& (2 ^ 11 - 1)) <<< 52 := by
      rw [Nat.and_two_pow_sub_one_eq_mod, Nat.shiftRight_eq_div_pow, Nat.shiftLeft_eq]
    rw [e, e2]
    apply Nat.eq_of_testBit_eq
    intro i
    rw [Nat.testBit_and, Nat.testBit_shiftLeft, Nat.testBit_shiftLeft, Nat.testBit_and, Nat.testBit_shiftRight]
    by_cases hi : 52 ≤ i
    · rw [show 52 + (i - 52) = i by omega]
      simp [hi]
    · simp [hi]
  have h2 : b.toNat &&& (0x000FFFFFFFFFFFFF : UInt64).toNat = b.toNat % 2 ^ 52 :=
    Nat.and_two_pow_sub_one_eq_mod _ 52
  rw [h1, h2]
  have e3 : (0x7FF0000000000000 : UInt64).toNat = 2047 * 2 ^ 52 := by decide
  have e4 : (0 : UInt64).toNat = 0 := rfl
  rw [e3, e4]
  omega

/-- The finite doubles. -/
theorem finite_spec {bits : UInt64} (h : nonFinite bits = false) : ∃ neg mag, ofDouble bits = .fin neg mag ∧ 0 ≤ mag ∧
    Fits double mag ∧ mag < 2 ^ (1024 : Int) := by
  have hn : ¬ bits.toNat / 2 ^ 52 % 2048 = 2047 := by rw [← nonFinite_iff, h]; decide
  have hh := double_in (p := double) ⟨by decide, by decide, by decide⟩ bits
  unfold ofDouble at hh ⊢
  dsimp only at hh ⊢
  rw [if_neg hn] at hh ⊢
  exact ⟨_, _, rfl, hh⟩

/-! ## The text of a double -/

/-- C124.  A finite double printed with 17 significant digits or more is read back as the same double, with the sign
of a zero. -/
theorem double_read_back {p : Nat} (hp : 17 ≤ p) {bits : UInt64} (h : nonFinite bits = false) :
    strtod (printDouble p bits) = bits := by
  obtain ⟨neg, mag, hd, h0, hf, hlt⟩ := finite_spec h
  obtain ⟨sg, ip, fp, ex, e, hsg, hip, hfp, hex, hv⟩ := print_parts p hd h0
  have hs : sg = [] ∨ sg = [45] := by cases neg <;> simp [hsg]
  have hneg : decide (sg = [45]) = neg := by cases neg <;> simp [hsg]
  have hi0 : ip ≠ [] := by rcases hip with rfl | ⟨d, ds, rfl, -⟩ <;> simp
  have hid : ∀ b ∈ ip, isDigit b = true := by
    rcases hip with rfl | ⟨d, ds, rfl, -, hd⟩
    · intro b hb; rw [List.mem_singleton] at hb; rw [hb]; decide
    · exact hd
  have := strtod_parts (w := []) hs hi0 hid hfp hex (fun _ _ h => by cases h)
  rw [List.append_nil, ← e, hneg] at this
  rw [this, ← encode_ofDouble hd, nearestDouble, hv]
  have hr : roundMag double (if mag = 0 then 0 else
      ((sig (max p 1) mag).1 : Rat) * 10 ^ ((sig (max p 1) mag).2 + 1 - ((max p 1 : Nat) : Int))) = mag := by
    by_cases hz : mag = 0
    · rw [if_pos hz, hz]; rfl
    · rw [if_neg hz]
      have hm : 0 < mag := by grind
      have hb := digits_back (P := max p 1) (by omega) hm hf
      unfold roundMag
      rw [if_neg, hb]
      obtain ⟨hq, -⟩ := sig_spec (P := max p 1) (by omega) hm
      have h1 : 0 < (sig (max p 1) mag).1 := Nat.lt_of_lt_of_le (Nat.pow_pos (by decide)) hq
      exact fun hz => absurd (Rat.mul_pos (show (0 : Rat) < ((sig (max p 1) mag).1 : Rat) by exact_mod_cast h1) (T_pos _)) (by rw [hz]; decide)
  rw [hr, fit, if_pos (show mag < 2 ^ double.hi from hlt)]

/-- C124.  So are the infinities, with any precision. -/
theorem infinity_read_back (p : Nat) {bits : UInt64} (h : bits = 0x7FF0000000000000 ∨ bits = 0xFFF0000000000000) :
    strtod (printDouble p bits) = bits := by
  rcases h with rfl | rfl
  · have : printDouble p 0x7FF0000000000000 = [105, 110, 102] := by
      have e : ofDouble 0x7FF0000000000000 = .inf false := by decide +kernel
      simp [printDouble, e]
    rw [this]; decide +kernel
  · have : printDouble p 0xFFF0000000000000 = [45, 105, 110, 102] := by
      have e : ofDouble 0xFFF0000000000000 = .inf true := by decide +kernel
      simp [printDouble, e]
    rw [this]; decide +kernel

/-- C124.  Different doubles have different texts. -/
theorem double_text_injective {p : Nat} (hp : 17 ≤ p) {a b : UInt64} (ha : nonFinite a = false) (hb : nonFinite b = false)
    (h : printDouble p a = printDouble p b) : a = b := by
  rw [← double_read_back hp ha, h, double_read_back hp hb]

/-- The text of a finite double is a number with a point. -/
theorem print_shape (p : Nat) {bits : UInt64} (h : nonFinite bits = false) : FloatText (printDouble p bits) := by
  obtain ⟨neg, mag, hd, h0, -, -⟩ := finite_spec h
  obtain ⟨sg, ip, fp, ex, e, hsg, hip, hfp, hex, -⟩ := print_parts p hd h0
  exact ⟨sg, ip, fp, ex, e, by cases neg <;> simp [hsg], hip, hfp, hex⟩

/-- C124.  The printing and reading of doubles are as the JSON round trip (C01) takes for granted. -/
theorem float_law (g : UInt64 → Bytes) : FloatLaw printDouble ⟨strtod, g⟩ where
  shape := fun p _ h => print_shape p h
  trail := by
    rintro t ws ⟨sg, ip, fp, ex, rfl, hs, hip, hfp, hex⟩ hw
    have hi0 : ip ≠ [] := by rcases hip with rfl | ⟨d, ds, rfl, -⟩ <;> simp
    have hid : ∀ b ∈ ip, isDigit b = true := by
      rcases hip with rfl | ⟨d, ds, rfl, -, hd⟩
      · intro b hb; rw [List.mem_singleton] at hb; rw [hb]; decide
      · exact hd
    have h1 := strtod_parts (w := []) hs hi0 hid hfp hex (fun _ _ h => by cases h)
    have h2 := strtod_parts (w := ws) hs hi0 hid hfp hex (by
      rintro c t rfl
      rcases hw c (by simp) with rfl | rfl <;> decide)
    rw [List.append_nil] at h1
    show strtod _ = strtod _
    rw [h1, h2]

/-! ## JSON -/

mutual
/-- What is read back from JSON: non-negative integers are unsigned, infinities and NaN null, blobs one piece. -/
def jsonBack : Val → Val
  | .null => .null
  | .bool b => .bool b
  | .int i => if 0 ≤ i.toInt then .uint (UInt64.ofNat i.toInt.toNat) else .int i
  | .uint u => .uint u
  | .flt b => if nonFinite b then .null else .flt b
  | .str s => .str s
  | .list xs => .list (jsonBackList xs)
  | .map m => .map (jsonBackMap m)
  | .blob segs => .blob [segs.flatten]
def jsonBackList : List Val → List Val
  | [] => []
  | x :: xs => jsonBack x :: jsonBackList xs
def jsonBackMap : List (Bytes × Val) → List (Bytes × Val)
  | [] => []
  | (k, x) :: m => (k, jsonBack x) :: jsonBackMap m
end

mutual
theorem readBack_exact (g : UInt64 → Bytes) {p : Nat} (hp : 17 ≤ p) : ∀ v : Val, readBack printDouble ⟨strtod, g⟩ p v = jsonBack v
  | .null => rfl
  | .bool _ => rfl
  | .int _ => rfl
  | .uint _ => rfl
  | .flt b => by
    simp only [readBack, jsonBack]
    split
    · rfl
    · rename_i h; rw [double_read_back hp (by simpa using h)]
  | .str _ => rfl
  | .list xs => by simp only [readBack, jsonBack, readBackList_exact g hp xs]
  | .map m => by simp only [readBack, jsonBack, readBackMap_exact g hp m]
  | .blob _ => rfl
theorem readBackList_exact (g : UInt64 → Bytes) {p : Nat} (hp : 17 ≤ p) : ∀ xs : List Val,
    readBackList printDouble ⟨strtod, g⟩ p xs = jsonBackList xs
  | [] => rfl
  | x :: xs => by simp only [readBackList, jsonBackList, readBack_exact g hp x, readBackList_exact g hp xs]
theorem readBackMap_exact (g : UInt64 → Bytes) {p : Nat} (hp : 17 ≤ p) : ∀ m : List (Bytes × Val),
    readBackMap printDouble ⟨strtod, g⟩ p m = jsonBackMap m
  | [] => rfl
  | (k, x) :: m => by simp only [readBackMap, jsonBackMap, readBack_exact g hp x, readBackMap_exact g hp m]
end

/-- C124.  A list or map written as JSON with at least 17 digits (the default, digits10 + 2) is read back with every
finite double in it bit for bit. -/
theorem json_exact (g : UInt64 → Bytes) (c : Cfg) (hp : 17 ≤ c.precision) (w : Nat → Nat)
    (v : Val) (hc : IsContainer v) (hv : Plain v) (hw : v.WF) (text : Bytes) (hs : serialize printDouble c w v = .ok text) :
    (fun r => r.1) <$> deserialize ⟨strtod, g⟩ [text] = .ok (jsonBack v) := by
  rw [json_round_trip printDouble ⟨strtod, g⟩ (float_law g) c w v hc hv hw text hs, readBack_exact g hp]

/-! ## Property lists -/

/-- Scalars that property lists can carry: texts and blobs as in C81, any double but NaN. -/
def XmlScalar : Val → Prop
  | .str s => Xml.TextOk s
  | .flt d => Event.isNaN d = false
  | .blob s => Xml.BlobOk (.blob s) ∧ s.flatten ≠ []
  | _ => True

theorem notNaN_cases {d : UInt64} (h : Event.isNaN d = false) :
    nonFinite d = false ∨ d = 0x7FF0000000000000 ∨ d = 0xFFF0000000000000 := by
  cases hn : nonFinite d with
  | false => exact .inl rfl
  | true =>
    right
    have h1 := (nonFinite_iff d).1 hn
    have h2 : ¬ (d.toNat / 2 ^ 52 % 2048 = 2047 ∧ d.toNat % 2 ^ 52 ≠ 0) := by rw [← isNaN_iff, h]; decide
    have hlt := d.toNat_lt
    rw [← UInt64.toNat_inj, ← UInt64.toNat_inj]
    have e1 : (0x7FF0000000000000 : UInt64).toNat = 2047 * 2 ^ 52 := by decide
    have e2 : (0xFFF0000000000000 : UInt64).toNat = 2 ^ 63 + 2047 * 2 ^ 52 := by decide
    rw [e1, e2]
    omega

theorem read_back {p : Nat} (hp : 17 ≤ p) {d : UInt64} (h : Event.isNaN d = false) : strtod (printDouble p d) = d := by
  rcases notNaN_cases h with h | h
  · exact double_read_back hp h
  · exact infinity_read_back p h

/-- The characters in the text of a double. -/
theorem print_chars (p : Nat) {d : UInt64} (h : Event.isNaN d = false) :
    printDouble p d ≠ [] ∧ ∀ c ∈ printDouble p d, 33 ≤ c ∧ c < 128 := by
  have dig : ∀ c, isDigit c = true → 33 ≤ c ∧ c < 128 := by
    intro c hc
    simp only [isDigit, Bool.and_eq_true, decide_eq_true_eq] at hc
    exact ⟨UInt8.le_trans (by decide) hc.1, UInt8.lt_of_le_of_lt hc.2 (by decide)⟩
  rcases notNaN_cases h with h | rfl | rfl
  · obtain ⟨sg, ip, fp, ex, e, hs, hip, hfp, hex⟩ := print_shape p h
    rw [e]
    refine ⟨by simp, ?_⟩
    intro c hc
    simp only [List.mem_append, List.mem_singleton] at hc
    rcases hc with (((hc | hc) | rfl) | hc) | hc
    · rcases hs with rfl | rfl
      · cases hc
      · rw [List.mem_singleton] at hc; rw [hc]; decide
    · rcases hip with rfl | ⟨d, ds, rfl, -, hd⟩
      · rw [List.mem_singleton] at hc; rw [hc]; decide
      · exact dig c (hd c hc)
    · decide
    · exact dig c (hfp c hc)
    · rcases hex with rfl | ⟨x, sn, ds, rfl, hx, hsn, -, hds⟩
      · cases hc
      · rcases List.mem_cons.1 hc with rfl | hc
        · rcases hx with rfl | rfl <;> decide
        · rcases List.mem_append.1 hc with hc | hc
          · rcases hsn with rfl | rfl | rfl
            · cases hc
            · rw [List.mem_singleton] at hc; rw [hc]; decide
            · rw [List.mem_singleton] at hc; rw [hc]; decide
          · exact dig c (hds c hc)
  · have e : ofDouble 0x7FF0000000000000 = .inf false := by decide +kernel
    simp [printDouble, e]
  · have e : ofDouble 0xFFF0000000000000 = .inf true := by decide +kernel
    simp [printDouble, e]

theorem print_text_ok (p : Nat) {d : UInt64} (h : Event.isNaN d = false) : Xml.TextOk (printDouble p d) ∧ printDouble p d ≠ [] := by
  obtain ⟨h1, h2⟩ := print_chars p h
  refine ⟨⟨?_, ?_, .inr ?_⟩, h1⟩
  · intro h0; exact absurd (h2 0 h0).1 (by decide)
  · generalize printDouble p d = t at h2
    clear h1
    induction t with
    | nil => rfl
    | cons c t ih =>
      obtain ⟨a, b⟩ := h2 c (by simp)
      rw [Xml.xmlChars.eq_def (c :: t)]
      dsimp only
      rw [if_pos b, ih (fun c hc => h2 c (by simp [hc])), Bool.and_true]
      have : c ≥ 32 := UInt8.le_trans (by decide) a
      simp [this]
  · obtain ⟨c, t, e⟩ : ∃ c t, printDouble p d = c :: t := by
      cases ht : printDouble p d with
      | nil => exact absurd ht h1
      | cons c t => exact ⟨c, t, rfl⟩
    refine ⟨c, by rw [e]; simp, ?_⟩
    have ha := (h2 c (by rw [e]; simp)).1
    simp only [UInt8.le_iff_toNat_le] at ha
    have e0 : (33 : UInt8).toNat = 33 := rfl
    unfold Xml.xmlBlank
    have k : ∀ b : UInt8, b.toNat < 33 → (c == b) = false := by
      intro b hb
      rw [beq_eq_false_iff_ne]
      rintro rfl
      omega
    simp [k 32 (by decide), k 9 (by decide), k 10 (by decide), k 13 (by decide)]

/-- C124.  A value without NaN written as a property list with at least 17 digits is read back as an equal value,
whatever its doubles are, infinities included. -/
theorem xml_exact (g : UInt64 → Bytes) {p : Nat} (hp : 17 ≤ p) (v : Val) (hw : v.WF)
    (hv : Xml.Every XmlScalar Xml.TextOk v) (bits : Nat) (hb : 64 ≤ bits) :
    ∃ ws w, Xml.serializeDoc (printDouble p) v = .ok ws ∧
      Xml.deserialize ⟨strtod, g⟩ (fun _ => false) (Xml.nodesOf [] ws) = .ok w ∧ veq bits v w = true := by
  have h1 : Xml.Every (Xml.ScalarOk (printDouble p)) Xml.TextOk v := by
    refine Yaml.every_imp (fun x hx => ?_) (fun _ h => h) v hv
    cases x with
    | str s => exact hx
    | flt d => exact print_text_ok p hx
    | blob s => exact hx
    | _ => trivial
  obtain ⟨ws, h2, h3⟩ := Xml.plist_round_trip_partial ⟨strtod, g⟩ (printDouble p) v hw h1
  refine ⟨ws, _, h2, h3, Xml.plist_back_equal _ _ v ?_ bits hb⟩
  refine Yaml.every_imp (fun x hx d hd => ?_) (fun _ _ => trivial) v hv
  subst hd
  exact read_back hp hx

/-! ## YAML -/

/-- C124.  A value without NaN written as YAML with at least 17 digits is read back as an equal value, whatever its
doubles are; for texts as in C89. -/
theorem yaml_exact (g : UInt64 → Bytes) {p : Nat} (hp : 17 ≤ p) (utf8 : Bytes → Bool) (plain : Nat → Bytes → Bool) (cf : Yaml.Conf)
    (hl : Yaml.LibLaw utf8 plain) (v : Val) (hw : v.WF) (hv : Xml.Every (Yaml.ScalarOk utf8 plain) (Yaml.StrOk utf8 plain) v)
    (hn : Xml.Every (fun x => ∀ d, x = .flt d → Event.isNaN d = false) (fun _ => True) v) (bits : Nat) (hb : 64 ≤ bits) :
    ∃ evs w, Yaml.serialize utf8 (printDouble p) cf v = .ok evs ∧
      Yaml.deserialize ⟨strtod, g⟩ (fun _ => false) (Yaml.readerEvents plain evs) = some (.ok w) ∧ veq bits v w = true := by
  have hd : Yaml.DigitsLaw (printDouble p) := by
    intro d h1 h2 h3
    rcases notNaN_cases h1 with h | h | h
    · exact print_shape p h
    · exact absurd h h2
    · exact absurd h h3
  obtain ⟨evs, h2, h3⟩ := Yaml.yaml_round_trip_partial ⟨strtod, g⟩ utf8 plain (printDouble p) cf hl hd v hw hv
  refine ⟨evs, _, h2, h3, Yaml.yaml_back_equal _ _ v ?_ bits hb⟩
  refine Yaml.every_imp (fun x hx d hd => ?_) (fun _ _ => trivial) v hn
  have h := hx d hd
  unfold Yaml.doubleBack
  rw [if_neg (by rw [h]; decide)]
  split
  · rfl
  · exact read_back hp h

/-! ## Fewer digits are not enough, and concrete cases -/

/-- C124, finding: with 16 digits (a precision the caller may choose) a double need not come back: 0.1 + 0.2, which is
not 0.3, is printed as 0.3000000000000000. -/
theorem sixteen_digits_false : ∃ bits : UInt64, nonFinite bits = false ∧
    printDouble 16 bits = [48, 46, 51, 48, 48, 48, 48, 48, 48, 48, 48, 48, 48, 48, 48, 48, 48, 48] ∧
    strtod (printDouble 16 bits) ≠ bits :=
  ⟨0x3FD3333333333334, by decide, by decide +kernel, by decide +kernel⟩

/-- The same double with 17 digits: 0.30000000000000004. -/
example : printDouble 17 0x3FD3333333333334 =
    [48, 46, 51, 48, 48, 48, 48, 48, 48, 48, 48, 48, 48, 48, 48, 48, 48, 48, 52] := by decide +kernel

/-- -1.5 with 3 digits, 1e-7 with 2, 1e23 (which is printed as 9.9999999999999992e+22) and a negative zero. -/
example : printDouble 3 0xBFF8000000000000 = [45, 49, 46, 53, 48] ∧
    printDouble 2 0x3E7AD7F29ABCAF48 = [49, 46, 48, 101, 45, 48, 55] ∧
    printDouble 17 0x44B52D02C7E14AF6 =
      [57, 46, 57, 57, 57, 57, 57, 57, 57, 57, 57, 57, 57, 57, 57, 57, 57, 50, 101, 43, 50, 50] ∧
    printDouble 4 0x8000000000000000 = [45, 48, 46, 48, 48, 48] := by decide +kernel

/-- Where the layout changes: 1e-05 with 2 digits, 0.0001 with 2 digits, 123.0 with 3 digits, 1234.0 with 3 digits, 999999.5 with 6 digits, 5e-324 with 17 digits, 1.7976931348623157e+308 with 17 digits, 1e+100 with 2 digits. -/
example : printDouble 2 0x3EE4F8B588E368F1 = [49, 46, 48, 101, 45, 48, 53] ∧
    printDouble 2 0x3F1A36E2EB1C432D = [48, 46, 48, 48, 48, 49, 48] ∧
    printDouble 3 0x405EC00000000000 = [49, 50, 51, 46] ∧
    printDouble 3 0x4093480000000000 = [49, 46, 50, 51, 101, 43, 48, 51] ∧
    printDouble 6 0x412E847F00000000 = [49, 46, 48, 48, 48, 48, 48, 101, 43, 48, 54] ∧
    printDouble 17 0x0000000000000001 = [52, 46, 57, 52, 48, 54, 53, 54, 52, 53, 56, 52, 49, 50, 52, 54, 53, 52, 101, 45, 51, 50, 52] ∧
    printDouble 17 0x7FEFFFFFFFFFFFFF = [49, 46, 55, 57, 55, 54, 57, 51, 49, 51, 52, 56, 54, 50, 51, 49, 53, 55, 101, 43, 51, 48, 56] ∧
    printDouble 2 0x54B249AD2594C37D = [49, 46, 48, 101, 43, 49, 48, 48] := by decide +kernel

/-- " 1e2", ".5", "-12.25x" and "1e999" read; the smallest double. -/
example : strtod [32, 49, 101, 50] = 0x4059000000000000 ∧ strtod [46, 53] = 0x3FE0000000000000 ∧
    strtod [45, 49, 50, 46, 50, 53, 120] = 0xC028800000000000 ∧ strtod [49, 101, 57, 57, 57] = 0x7FF0000000000000 ∧
    strtod [52, 46, 57, 52, 101, 45, 51, 50, 52] = 1 := by decide +kernel

/-- A JSON document with a double in it. -/
example : IsContainer (.list [.flt 0x3FD3333333333334]) ∧ Plain (.list [.flt 0x3FD3333333333334]) ∧
    (Val.list [.flt 0x3FD3333333333334]).WF ∧ Emittable true (.list [.flt 0x3FD3333333333334]) ∧
    Xml.Every XmlScalar Xml.TextOk (.list [.flt 0x3FD3333333333334]) :=
  ⟨trivial, ⟨trivial, trivial⟩, by simp [Val.WF, WFList], ⟨fun _ => by decide, trivial⟩,
    ⟨(by decide : Event.isNaN 0x3FD3333333333334 = false), trivial⟩⟩

end Verif.Dec
