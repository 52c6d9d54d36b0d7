import Verif.Yaml.Write
import Verif.Yaml.Docs
/-!
# YAML: what is read back of what is written
-/

namespace Verif.Yaml
open Verif Verif.JsonDrv
open Verif.Xml (Every EveryList EveryMap decimal)

/-! ## Words -/

theorem Word.of {t : Bytes} (h1 : ∀ c ∈ t, WordChar c) (h2 : ∃ c ∈ t, isDigit c = true ∨ (65 ≤ c ∧ c ≤ 90) ∨ (97 ≤ c ∧ c ≤ 122))
    (h3 : ¬ [45, 45, 45] <+: t) (h4 : ¬ [46, 46, 46] <+: t) : Word t := ⟨h1, h2, h3, h4⟩

theorem digit_not_mark : ∀ c : UInt8, isDigit c = true → c ≠ 45 ∧ c ≠ 46 ∧ c ≠ 43 ∧ c ≠ 0 := Xml.byte_all (by decide +kernel)

/-- Perhaps a minus, a digit, and word characters. -/
theorem Word.signed {sg r : Bytes} {d : UInt8} (hsg : sg = [] ∨ sg = [45]) (hd : isDigit d = true) (hr : ∀ c ∈ r, WordChar c) : Word (sg ++ d :: r) := by
  have h := digit_not_mark d hd
  refine ⟨?_, ⟨d, by simp, .inl hd⟩, ?_, ?_⟩
  · intro c hc
    rw [List.mem_append, List.mem_cons] at hc
    rcases hc with hc | rfl | hc
    · rcases hsg with rfl | rfl
      · cases hc
      · rw [List.mem_singleton] at hc; subst hc; exact .inr (.inr (.inr (.inr (.inr rfl))))
    · exact .inl hd
    · exact hr c hc
  · rcases hsg with rfl | rfl
    · intro hp
      rw [List.nil_append, List.cons_prefix_cons] at hp
      exact h.1 hp.1.symm
    · intro hp
      rw [List.singleton_append, List.cons_prefix_cons, List.cons_prefix_cons] at hp
      exact h.1 hp.2.1.symm
  · rcases hsg with rfl | rfl
    · intro hp
      rw [List.nil_append, List.cons_prefix_cons] at hp
      exact h.2.1 hp.1.symm
    · intro hp
      rw [List.singleton_append, List.cons_prefix_cons] at hp
      exact absurd hp.1 (by decide)

theorem word_decimal (i : Int) : Word (decimal i) := by
  have h : ∀ n, ∃ d r, natDec n = d :: r ∧ isDigit d = true ∧ ∀ c ∈ r, WordChar c := by
    intro n
    obtain ⟨b, bs, e, hd⟩ := Ext.natDec_cons n
    refine ⟨b, bs, e, hd, fun c hc => .inl (natDec_all_digits n c ?_)⟩
    rw [e]; exact .tail _ hc
  obtain ⟨d, r, e, hd, hr⟩ := h i.natAbs
  rw [decimal, e]
  split
  · exact Word.signed (sg := [45]) (.inr rfl) hd hr
  · exact Word.signed (sg := []) (.inl rfl) hd hr

theorem word_float {t : Bytes} (h : JsonTok.FloatText t) : Word t := by
  have hc := floatText_chars h
  obtain ⟨sg, ip, fp, ex, rfl, hsg, hip, hfp, hex⟩ := h
  obtain ⟨d, r, rfl⟩ := List.exists_cons_of_ne_nil (intPart_digits hip).1
  have hd := (intPart_digits hip).2 d (.head _)
  simp only [List.append_assoc, List.cons_append] at hc ⊢
  exact Word.signed hsg hd (fun c h => hc c (by simp only [List.mem_append, List.mem_cons] at h ⊢; exact .inr (.inr h)))

theorem number_float {t : Bytes} (h : JsonTok.FloatText t) : Guess.Number t ∧ ¬ Guess.Integer t := by
  obtain ⟨sg, ip, fp, ex, rfl, hsg, hip, hfp, hex⟩ := h
  constructor
  · refine ⟨sg, ip ++ [46] ++ fp, ex, by simp only [List.append_assoc], ?_, .inr (.inr ⟨ip, fp, rfl, intPart_digits hip, hfp⟩), ?_⟩
    · rcases hsg with rfl | rfl
      · exact .inl rfl
      · exact .inr (.inl rfl)
    · rcases hex with rfl | ⟨x, sn, ds, rfl, hx, hsn, hne, hds⟩
      · exact .inl rfl
      · refine .inr ⟨[x], sn ++ ds, rfl, ?_, sn, ds, rfl, ?_, hne, hds⟩
        · rcases hx with rfl | rfl
          · exact .inl rfl
          · exact .inr rfl
        · rcases hsn with rfl | rfl | rfl
          · exact .inl rfl
          · exact .inr (.inr rfl)
          · exact .inr (.inl rfl)
  · rintro ⟨s, ds, e, hs, _, hds⟩
    have : (46 : UInt8) ∈ s ++ ds := by rw [← e]; simp
    rcases List.mem_append.1 this with h | h
    · rcases hs with rfl | rfl | rfl
      · cases h
      · exact absurd h (by decide)
      · exact absurd h (by decide)
    · exact (digit_not_mark _ (hds _ h)).2.1 rfl

theorem word_noNul {t : Bytes} (h : Word t) : 0 ∉ t := by
  intro h0
  have : ∀ c : UInt8, WordChar c → c ≠ 0 := Xml.byte_all (by decide +kernel)
  exact this 0 (h.1 0 h0) rfl

/-! ## What scalars look like -/

variable {fo : FloatOps}

theorem surrounds_self (t : Bytes) : Guess.Surrounds t t := ⟨[], [], by simp, nofun, nofun⟩

theorem guess_integer {sg ds : Bytes} (h0 : 0 ∉ sg ++ ds) (hsg : Guess.Sign sg) (hds : Guess.Digits ds) (s : Bool) :
    Guess.guess fo s (sg ++ ds) = Guess.int10 s (sg ++ ds) := by
  have hint : Guess.Integer (sg ++ ds) := ⟨sg, ds, rfl, hsg, hds⟩
  rw [Guess.guess_of_trim fo s h0 (Guess.trim_surrounds (surrounds_self _) hint.noBlank)]
  obtain ⟨h1, h2, h3⟩ := Guess.int_not_word hint
  have h4 := (Guess.integer_iff _).2 hint
  simp only [h1, h2, h3, h4, if_true, if_false]

theorem guess_nat (n : Nat) (hn : n < 2 ^ 64) :
    Guess.guess fo false (natDec n) = if n < 2 ^ 63 then .int (Int64.ofNat n) else .uint (UInt64.ofNat n) := by
  have hd : Guess.Digits (natDec n) := ⟨natDec_ne_nil n, natDec_all_digits n⟩
  have hz : 0 ∉ natDec n := fun h => by have := natDec_all_digits n 0 h; cases this
  have h := guess_integer (fo := fo) (sg := []) (ds := natDec n) hz (.inl rfl) hd false
  rw [List.nil_append] at h
  rw [h]
  obtain ⟨e1, e2⟩ := Guess.sign_append (sg := []) (r := natDec n) (.inl rfl) (Guess.digits_head hd.2)
  rw [List.nil_append] at e1 e2
  unfold Guess.int10
  simp only [e1, e2, decVal_natDec_acc, Nat.zero_mul, Nat.zero_add, show decide (([] : Bytes) = Guess.minus) = false from rfl]
  by_cases hlt : n < 2 ^ 63
  · have h5 : Guess.strtoll false n = n := by simp [Guess.strtoll, hlt]
    rw [h5, if_pos hlt, if_neg]
    · rw [Int64.ofInt_eq_ofNat]
    · rintro ⟨_, h⟩
      simp at h
      omega
  · have h5 : Guess.strtoll false n = 2 ^ 63 - 1 := by simp [Guess.strtoll, hlt]
    rw [h5, if_neg hlt, if_pos ⟨rfl, by simp; omega⟩, Guess.sat64, Nat.min_eq_left (by omega)]

theorem guess_neg (n : Nat) (hn : n ≤ 2 ^ 63) : Guess.guess fo false (45 :: natDec n) = .int (Int64.ofInt (-(n : Int))) := by
  have hd : Guess.Digits (natDec n) := ⟨natDec_ne_nil n, natDec_all_digits n⟩
  have hz : 0 ∉ Guess.minus ++ natDec n := fun h => by
    rcases List.mem_append.1 h with h | h
    · exact absurd h (by decide)
    · have := natDec_all_digits n 0 h; cases this
  have h := guess_integer (fo := fo) (sg := Guess.minus) (ds := natDec n) hz (.inr (.inl rfl)) hd false
  rw [show (45 :: natDec n) = Guess.minus ++ natDec n from rfl, h]
  obtain ⟨e1, e2⟩ := Guess.sign_append (sg := Guess.minus) (r := natDec n) (.inr (.inl rfl)) (Guess.digits_head hd.2)
  unfold Guess.int10
  simp only [e1, e2, decVal_natDec_acc, Nat.zero_mul, Nat.zero_add]
  have h5 : Guess.strtoll (decide True) n = -(n : Int) := by simp [Guess.strtoll, hn]
  rw [h5, if_neg (by omega)]

theorem guess_int64 (i : Int64) : Guess.guess fo false (decimal i.toInt) = .int i := by
  have hlo := i.le_toInt
  have hhi := i.toInt_lt
  rw [decimal]
  split
  · rw [guess_neg _ (by omega)]
    congr 1
    rw [show (-(i.toInt.natAbs : Int)) = i.toInt by omega]
    exact Int64.ofInt_toInt i
  · rw [guess_nat _ (by omega), if_pos (by omega)]
    congr 1
    rw [← Int64.ofInt_eq_ofNat, show ((i.toInt.natAbs : Nat) : Int) = i.toInt by omega]
    exact Int64.ofInt_toInt i

theorem guess_float {t : Bytes} (h : JsonTok.FloatText t) : Guess.guess fo false t = .flt (fo.strtod t) := by
  have := Guess.guess_number fo false (a := []) (t := t) (b := []) (by simpa using word_noNul (word_float h)) nofun nofun (number_float h).1 (number_float h).2
  simpa using this

theorem word_double {ff : UInt64 → Bytes} (hf : DigitsLaw ff) (d : UInt64) : Word (doubleText ff d) := by
  unfold doubleText
  split
  · unfold Word; decide
  · split
    · unfold Word; decide
    · split
      · unfold Word; decide
      · rename_i h1 h2 h3
        exact word_float (hf d (by simpa using h1) h2 h3)

theorem guess_double {ff : UInt64 → Bytes} (hf : DigitsLaw ff) (d : UInt64) :
    Guess.guess fo false (doubleText ff d) = .flt (doubleBack fo ff d) := by
  unfold doubleText doubleBack
  split
  · exact (Guess.guess_special fo false (by decide) (surrounds_self _)).2 (by decide)
  · split
    · rename_i h; subst h
      rw [if_pos (.inl rfl), (Guess.guess_special fo false (by decide) (surrounds_self _)).1 (by decide)]
      rfl
    · split
      · rename_i h; subst h
        rw [if_pos (.inr rfl), (Guess.guess_special fo false (by decide) (surrounds_self _)).1 (by decide)]
        rfl
      · rename_i h1 h2 h3
        rw [if_neg (by rintro (h | h) <;> contradiction)]
        exact guess_float (hf d (by simpa using h1) h2 h3)

/-! ## Maps -/

mutual
theorem back_wf (fo : FloatOps) (ff : UInt64 → Bytes) : ∀ v : Val, v.WF → (yamlBack fo ff v).WF
  | .list xs, h => by
    simp only [Val.WF, yamlBack] at h ⊢; exact backList_wf fo ff xs h
  | .map m, h => by
    simp only [Val.WF, yamlBack] at h ⊢
    exact ⟨sorted_back fo ff m h.1, backMap_wf fo ff m h.2⟩
  | .null, h => by simpa [yamlBack] using h
  | .bool _, h => by simpa [yamlBack] using h
  | .int _, h => by simpa [yamlBack] using h
  | .uint _, _ => by simp only [yamlBack]; split <;> simp [Val.WF]
  | .flt _, h => by simp [yamlBack, Val.WF]
  | .str _, h => by simpa [yamlBack] using h
  | .blob _, _ => by simp [yamlBack, Val.WF]
theorem backList_wf (fo : FloatOps) (ff : UInt64 → Bytes) : ∀ xs : List Val, WFList xs → WFList (yamlBackList fo ff xs)
  | [], _ => by simp [yamlBackList, WFList]
  | x :: xs, h => by
    simp only [WFList, yamlBackList] at h ⊢
    exact ⟨back_wf fo ff x h.1, backList_wf fo ff xs h.2⟩
theorem backMap_wf (fo : FloatOps) (ff : UInt64 → Bytes) : ∀ m : List (Bytes × Val), WFMap m → WFMap (yamlBackMap fo ff m)
  | [], _ => by simp [yamlBackMap, WFMap]
  | (k, x) :: m, h => by
    simp only [WFMap, yamlBackMap] at h ⊢
    exact ⟨back_wf fo ff x h.1, backMap_wf fo ff m h.2⟩
theorem sorted_back (fo : FloatOps) (ff : UInt64 → Bytes) : ∀ m : List (Bytes × Val), AMap.Sorted m → AMap.Sorted (yamlBackMap fo ff m)
  | [], _ => by simp [yamlBackMap, AMap.Sorted]
  | (k, x) :: m, h => by
    simp only [yamlBackMap, AMap.Sorted] at h ⊢
    refine ⟨?_, sorted_back fo ff m h.2⟩
    intro q hq
    have : ∀ (m : List (Bytes × Val)) (q : Bytes × Val), q ∈ yamlBackMap fo ff m → ∃ q' ∈ m, q'.1 = q.1 := by
      intro m
      induction m with
      | nil => intro q hq; simp [yamlBackMap] at hq
      | cons p m ih =>
        obtain ⟨k', x'⟩ := p
        intro q hq
        simp only [yamlBackMap, List.mem_cons] at hq
        rcases hq with rfl | hq
        · exact ⟨(k', x'), .head _, rfl⟩
        · obtain ⟨q', h1, h2⟩ := ih q hq
          exact ⟨q', .tail _ h1, h2⟩
    obtain ⟨q', h1, h2⟩ := this m q hq
    rw [← h2]
    exact h.1 q' h1
end

theorem sorted_last {m : List (Bytes × Val)} (h : AMap.Sorted m) (k : Bytes) : AMap.get m k = lastOf m k := by
  unfold lastOf
  cases hf : m.reverse.find? (fun p => p.1 == k) with
  | some p =>
    obtain ⟨a, b⟩ := p
    have h1 := List.find?_some hf
    have h2 := List.mem_of_find?_eq_some hf
    simp only [beq_iff_eq] at h1
    subst h1
    rw [List.mem_reverse] at h2
    exact AMap.get_of_mem h h2
  | none =>
    cases hg : AMap.get m k with
    | none => rfl
    | some v =>
      have := List.find?_eq_none.1 hf (k, v) (List.mem_reverse.2 (AMap.get_mem hg))
      simp at this

/-! ## The document read back -/

theorem readerEvents_append (plain : Nat → Bytes → Bool) (w : WEv) (ws : List WEv) :
    readerEvents plain (w :: ws) = readerEvent plain ws.length w :: readerEvents plain ws := rfl

section
variable {utf8 : Bytes → Bool} {plain : Nat → Bytes → Bool} {ff : UInt64 → Bytes} {cf : Conf}

/-- A scalar read back. -/
def YScalar (tag : Option Bytes) (p : Bool) (t : Bytes) : YTree := .scalar [] tag (if p then .plain else .double) t

theorem means_word {t : Bytes} {v : Val} {k : Nat} (hl : LibLaw utf8 plain) (hw : Word t) (hg : Guess.guess fo false t = v) :
    Means fo (· = false) Rule.first [] (YScalar none (plain k t) t) v [] := by
  rw [hl.word k t hw]
  exact .scalar (a := []) (.plain (.inl rfl) (by rintro s rfl; exact hg))

theorem means_str {s : Bytes} {k : Nat} (h : StrOk utf8 plain s) : Means fo (· = false) Rule.first [] (YScalar none (plain k s) s) (.str s) [] := by
  refine .scalar (a := []) ?_
  cases hp : plain k s with
  | false => exact .quoted (.inr (.inl rfl))
  | true =>
    refine .plain (.inl rfl) ?_
    rintro _ rfl
    rcases h.2.2 with h' | h'
    · rw [h' k] at hp; cases hp
    · exact (Guess.guess_string_iff fo false h.1 s).2 ⟨rfl, h'⟩

theorem base64_length (l : Bytes) : (B64Spec.rfc4648 l).length = 4 * ((l.length + 2) / 3) := by
  rw [← encFlat_rfc l 0, B64.encFlat_length_cpl0]

theorem means_blob {s : List Bytes} (h : Xml.BlobOk (.blob s)) (p : Bool) :
    Means fo (· = false) Rule.first [] (YScalar (some binaryTag) p (base64 s)) (.blob [s.flatten]) [] := by
  refine .scalar (a := []) ?_
  have hd := B64.decode_encode s 0 h.1
  rw [encode_line h.1, Out.bind_ok] at hd
  have hn := h.2
  have hlen := base64_length s.flatten
  have hl : (UInt32.ofNat (base64 s).length).toNat = (base64 s).length := Xml.toNat_ofNat_small (by rw [hlen]; omega)
  exact .binary hd (B64.decode_fits_partial _ _ _ hl.symm (by rw [hl, hlen]; omega) hd)

theorem read_word {t : Bytes} {st : Style} {v : Val} (hl : LibLaw utf8 plain) (hw : Word t) (hg : Guess.guess fo false t = v) (rest : List WEv) :
    ∃ y, readerEvents plain ((untagged t st).events ++ rest) = y.events ++ readerEvents plain rest ∧
      Means fo (· = false) Rule.first [] y v [] := ⟨_, rfl, means_word hl hw hg⟩

mutual
theorem read_val (hl : LibLaw utf8 plain) (hf : DigitsLaw ff) : ∀ (v : Val) (rest : List WEv),
    Every (ScalarOk utf8 plain) (StrOk utf8 plain) v → v.WF →
    ∃ y, readerEvents plain ((nodeOf cf ff base64 v).events ++ rest) = y.events ++ readerEvents plain rest ∧
      Means fo (· = false) Rule.first [] y (yamlBack fo ff v) []
  | .null, rest, _, _ => read_word hl (by unfold Word; decide) (by rw [Guess.guess_of_trim fo false (by decide) rfl]; rfl) rest
  | .bool true, rest, _, _ => read_word hl (by unfold Word; decide) (by rw [Guess.guess_of_trim fo false (by decide) rfl]; rfl) rest
  | .bool false, rest, _, _ => read_word hl (by unfold Word; decide) (by rw [Guess.guess_of_trim fo false (by decide) rfl]; rfl) rest
  | .int i, rest, _, _ => read_word hl (word_decimal _) (guess_int64 i) rest
  | .uint u, rest, _, _ => by
    refine read_word hl (word_decimal _) ?_ rest
    rw [uint_decimal, guess_nat _ u.toNat_lt, yamlBack]
    split
    · rfl
    · rw [UInt64.ofNat_toNat]
  | .flt d, rest, _, _ => read_word hl (word_double hf d) (guess_double hf d) rest
  | .str s, rest, h, _ => by
    rw [nodeOf, Guess.takeWhile_noNul h.1]
    exact ⟨_, rfl, means_str h⟩
  | .blob s, rest, h, _ => ⟨YScalar (some binaryTag) (plain rest.length (base64 s)) (base64 s), rfl, means_blob h _⟩
  | .list xs, rest, h, hw => by
    simp only [Val.WF] at hw
    obtain ⟨ys, h1, h2⟩ := read_list hl hf xs (.seqEnd :: rest) h hw
    refine ⟨.list [] ys, ?_, .list (a := []) h2⟩
    rw [nodeOf, WNode.events, List.cons_append, List.append_assoc, List.singleton_append, readerEvents_append, h1, YTree.events]
    simp only [List.cons_append, List.append_assoc, List.nil_append]
    rfl
  | .map m, rest, h, hw => by
    simp only [Val.WF] at hw
    obtain ⟨ys, h1, h2⟩ := read_map hl hf m (.mapEnd :: rest) h hw.2
    refine ⟨.map [] ys, ?_, .map (a := []) h2 (sorted_back fo ff m hw.1) (sorted_last (sorted_back fo ff m hw.1))⟩
    rw [nodeOf, WNode.events, List.cons_append, List.append_assoc, List.singleton_append, readerEvents_append, h1, YTree.events]
    simp only [List.cons_append, List.append_assoc, List.nil_append]
    rfl
theorem read_list (hl : LibLaw utf8 plain) (hf : DigitsLaw ff) : ∀ (xs : List Val) (rest : List WEv),
    EveryList (ScalarOk utf8 plain) (StrOk utf8 plain) xs → WFList xs →
    ∃ ys, readerEvents plain (wEvents (nodesOf cf ff base64 xs) ++ rest) = eventsList ys ++ readerEvents plain rest ∧
      MeansList fo (· = false) Rule.first [] ys (yamlBackList fo ff xs) []
  | [], rest, _, _ => ⟨[], rfl, .nil⟩
  | x :: xs, rest, h, hw => by
    simp only [WFList] at hw
    obtain ⟨y, h1, h2⟩ := read_val hl hf x (wEvents (nodesOf cf ff base64 xs) ++ rest) h.1 hw.1
    obtain ⟨ys, h3, h4⟩ := read_list hl hf xs rest h.2 hw.2
    refine ⟨y :: ys, ?_, .cons h2 h4⟩
    rw [nodesOf, wEvents, List.append_assoc, h1, h3, eventsList, List.append_assoc]
theorem read_map (hl : LibLaw utf8 plain) (hf : DigitsLaw ff) : ∀ (m : List (Bytes × Val)) (rest : List WEv),
    EveryMap (ScalarOk utf8 plain) (StrOk utf8 plain) m → WFMap m →
    ∃ ys, readerEvents plain (wPairs (pairsOf cf ff base64 m) ++ rest) = eventsMap ys ++ readerEvents plain rest ∧
      MeansMap fo (· = false) Rule.first [] ys (yamlBackMap fo ff m) []
  | [], rest, _, _ => ⟨[], rfl, .nil⟩
  | (k, x) :: m, rest, h, hw => by
    simp only [WFMap] at hw
    obtain ⟨y, h1, h2⟩ := read_val hl hf x (wPairs (pairsOf cf ff base64 m) ++ rest) h.2.1 hw.1
    obtain ⟨ys, h3, h4⟩ := read_map hl hf m rest h.2.2 hw.2
    refine ⟨(YScalar none (plain ((nodeOf cf ff base64 x).events ++ (wPairs (pairsOf cf ff base64 m) ++ rest)).length k) k, y) :: ys, ?_,
      .cons (means_str h.1) .str h2 h4⟩
    rw [pairsOf, wPairs, Guess.takeWhile_noNul h.1.1, List.append_assoc, List.append_assoc]
    show readerEvents plain (WEv.scalar none k true true .any :: ((nodeOf cf ff base64 x).events ++ (wPairs (pairsOf cf ff base64 m) ++ rest))) = _
    rw [readerEvents_append, h1, h3, eventsMap, List.append_assoc, List.append_assoc]
    rfl
end

end

end Verif.Yaml
