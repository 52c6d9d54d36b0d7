import Verif.Xml.Emit
import Verif.Build.Props
import Verif.Ext.PointerLemmas
/-!
# Reading what was written
-/

namespace Verif.Xml
open Verif Verif.JsonDrv
open Verif.Build (ETree treeOf treeOfList treeOfMap)

/-! ## The document the reader sees -/

/-- The text nodes of a text. -/
def textKids (s : Bytes) : List XTree := if s = [] then [] else if s.all xmlBlank then [.other] else [.text s]

mutual
def WTree.seen : WTree → List XTree
  | .elem n ks => [.elem n ks.isEmpty (seenAll ks)]
  | .text s => textKids s
def seenAll : List WTree → List XTree
  | [] => []
  | t :: ts => t.seen ++ seenAll ts
end

mutual
/-- All texts have characters of XML only. -/
def WTree.Clean : WTree → Prop
  | .elem _ ks => CleanAll ks
  | .text s => xmlChars s = true
def CleanAll : List WTree → Prop
  | [] => True
  | t :: ts => t.Clean ∧ CleanAll ts
end

theorem nodesAll_append (a b : List XTree) : nodesAll (a ++ b) = nodesAll a ++ nodesAll b := by
  induction a with
  | nil => rfl
  | cons x a ih => simp only [List.cons_append, nodesAll, ih, List.append_assoc]

theorem textNodes_kids {s : Bytes} (h : xmlChars s = true) : textNodes s = nodesAll (textKids s) := by
  unfold textNodes textKids
  split
  · rfl
  · rw [if_neg (by rw [h]; nofun)]
    split <;> rfl

theorem nodesOf_text (st : List Bytes) (s : Bytes) (r : List WCall) : nodesOf st (.text s :: r) = textNodes s ++ nodesOf st r := by
  cases st <;> rfl

theorem nodesOf_start (st : List Bytes) (n : Bytes) (c : WCall) (r : List WCall) (h : c ≠ .close) :
    nodesOf st (.start n :: c :: r) = .elem n false :: nodesOf (n :: st) (c :: r) := by
  cases c with
  | close => exact absurd rfl h
  | start m => cases st <;> rfl
  | text s => cases st <;> rfl

theorem written_head (t : WTree) : ∃ c r, t.written = c :: r ∧ c ≠ .close := by
  cases t with
  | elem n ks => exact ⟨_, _, by rw [WTree.written], by nofun⟩
  | text s => exact ⟨_, _, by rw [WTree.written], by nofun⟩

mutual
theorem nodesOf_written : ∀ (t : WTree) (st : List Bytes) (r : List WCall), t.Clean →
    nodesOf st (t.written ++ r) = nodesAll t.seen ++ nodesOf st r
  | .text s, st, r, h => by
    rw [WTree.written, List.singleton_append, nodesOf_text, WTree.seen, textNodes_kids h]
  | .elem n [], st, r, h => by
    cases st <;> rfl
  | .elem n (k :: ks), st, r, h => by
    obtain ⟨c, q, e, hc⟩ := written_head k
    have hk := nodesOf_writtenAll (k :: ks) (n :: st) (.close :: r) h
    rw [writtenAll, e, List.append_assoc, List.cons_append] at hk
    rw [WTree.written, List.cons_append, List.append_assoc, writtenAll, e, List.append_assoc, List.cons_append,
      nodesOf_start _ _ _ _ hc, List.singleton_append, hk, WTree.seen]
    simp only [nodesAll, List.isEmpty_cons, XTree.nodes, List.append_nil, List.cons_append, List.append_assoc]
    cases st <;> rfl
theorem nodesOf_writtenAll : ∀ (ts : List WTree) (st : List Bytes) (r : List WCall), CleanAll ts →
    nodesOf st (writtenAll ts ++ r) = nodesAll (seenAll ts) ++ nodesOf st r
  | [], st, r, _ => rfl
  | t :: ts, st, r, h => by
    rw [writtenAll, List.append_assoc, nodesOf_written t st _ h.1, nodesOf_writtenAll ts st r h.2, seenAll, nodesAll_append,
      List.append_assoc]
end

/-! ## Integers -/

theorem byte_all {P : UInt8 → Prop} (h : ∀ n : Fin 256, P (UInt8.ofNat n.val)) (c : UInt8) : P c := by
  have := h ⟨c.toNat, c.toNat_lt⟩
  rwa [UInt8.ofNat_toNat] at this

theorem digitsVal_dec (ds : Bytes) (h : ∀ c ∈ ds, isDigit c = true) (acc : Nat) :
    digitsVal 10 decDigit acc ds = decVal acc ds := by
  induction ds generalizing acc with
  | nil => rfl
  | cons c ds ih =>
    rw [digitsVal, decDigit, if_pos (h c (.head _))]
    simp only []
    rw [ih (fun x hx => h x (.tail _ hx))]
    rfl

theorem magnitude_natDec (n : Nat) : magnitude (natDec n) = n := by
  by_cases h : n = 0
  · subst h
    rw [natDec_lt (by decide)]
    rfl
  · obtain ⟨b, bs, e, hd, hne⟩ := natDec_head n (by omega)
    have h2 := digitsVal_dec (natDec n) (natDec_all_digits n) 0
    rw [decVal_natDec_acc] at h2
    rw [e] at h2 ⊢
    unfold magnitude
    split
    · rename_i h1; cases h1; exact absurd rfl hne
    · rename_i h1; cases h1; exact absurd rfl hne
    · exact h2

theorem sign_natDec (n : Nat) : Ext.sign ((natDec n).dropWhile isSpace) = (false, natDec n) := by
  obtain ⟨b, bs, e, hd⟩ := Ext.natDec_cons n
  have hs : isSpace b = false ∧ b ≠ 45 ∧ b ≠ 43 := by
    have : ∀ b : UInt8, isDigit b = true → isSpace b = false ∧ b ≠ 45 ∧ b ≠ 43 := byte_all (by decide +kernel)
    exact this b hd
  rw [e, List.dropWhile_cons, if_neg (by rw [hs.1]; nofun), Ext.sign, if_neg hs.2.1, if_neg hs.2.2]

theorem sign_neg (n : Nat) : Ext.sign ((45 :: natDec n : Bytes).dropWhile isSpace) = (true, natDec n) := rfl

/-- Integers are read as they are printed. -/
theorem readInt_int (i : Int64) : readInt false (decimal i.toInt) = .int i := by
  have h1 := Int64.le_toInt i
  have h2 := Int64.toInt_lt i
  have hi : Int64.ofInt i.toInt = i := Int64.ofInt_toInt i
  rw [decimal]
  by_cases hn : i.toInt < 0
  · rw [if_pos hn, readInt]
    simp only [sign_neg, magnitude_natDec, Guess.strtoll, if_true, Bool.false_or]
    have e : (if i.toInt.natAbs ≤ 2 ^ 63 then -(i.toInt.natAbs : Int) else -(2 ^ 63)) = i.toInt := by
      rw [if_pos (by omega)]; omega
    rw [e, if_neg (by omega), hi]
  · rw [if_neg hn, readInt]
    simp only [sign_natDec, magnitude_natDec, Guess.strtoll, Bool.false_eq_true, if_false, Bool.false_or]
    have e : (if i.toInt.natAbs < 2 ^ 63 then (i.toInt.natAbs : Int) else 2 ^ 63 - 1) = i.toInt := by
      rw [if_pos (by omega)]; omega
    rw [e, if_neg, hi]
    rintro ⟨_, h⟩
    simp only [decide_eq_true_eq] at h
    omega

theorem readInt_uint (fo : FloatOps) (ff : UInt64 → Bytes) (u : UInt64) :
    readInt false (decimal u.toNat) = scalarBack fo ff (.uint u) := by
  have hu := u.toNat_lt
  rw [decimal, if_neg (by omega), Int.natAbs_natCast, readInt]
  simp only [sign_natDec, magnitude_natDec, Guess.strtoll, Bool.false_eq_true, if_false, Bool.false_or, scalarBack]
  by_cases h : u.toNat < 2 ^ 63
  · rw [if_pos h, if_pos h, if_neg, Int64.ofInt_eq_ofNat]
    rintro ⟨_, h2⟩
    simp only [decide_eq_true_eq] at h2
    omega
  · rw [if_neg h, if_neg h, if_pos ⟨rfl, by simp only [decide_eq_true_eq]; omega⟩, Ext.signed64, if_neg (by omega), if_neg (by nofun)]
    congr 1
    exact UInt64.ofNat_toNat

/-! ## Texts -/

theorem xmlChars_ascii (s : Bytes) (h : ∀ c ∈ s, c < 128 ∧ (c ≥ 32 ∨ c = 10)) : xmlChars s = true := by
  induction s with
  | nil => rfl
  | cons c s ih =>
    have hc := h c (.head _)
    unfold xmlChars
    rw [if_pos hc.1, ih (fun x hx => h x (.tail _ hx)), Bool.and_true]
    rcases hc.2 with hc | hc
    · simp [hc]
    · simp [hc]

theorem decimal_chars (i : Int) : ∀ c ∈ decimal i, isDigit c = true ∨ c = 45 := by
  intro c hc
  rw [decimal] at hc
  split at hc
  · rcases List.mem_cons.1 hc with rfl | hc
    · exact .inr rfl
    · exact .inl (natDec_all_digits _ c hc)
  · exact .inl (natDec_all_digits _ c hc)

theorem decimal_ne (i : Int) : decimal i ≠ [] := by
  rw [decimal]; split
  · nofun
  · exact natDec_ne_nil _

theorem digit_facts (c : UInt8) (h : isDigit c = true ∨ c = 45) : c < 128 ∧ c ≥ 32 ∧ xmlBlank c = false ∧ c ≠ 0 := by
  have : ∀ c : UInt8, isDigit c = true ∨ c = 45 → c < 128 ∧ c ≥ 32 ∧ xmlBlank c = false ∧ c ≠ 0 := byte_all (by decide +kernel)
  exact this c h

theorem decimal_text (i : Int) : TextOk (decimal i) := by
  refine ⟨fun h => (digit_facts _ (decimal_chars i _ h)).2.2.2 rfl, xmlChars_ascii _ (fun c hc => ?_), .inr ?_⟩
  · have := digit_facts c (decimal_chars i c hc)
    exact ⟨this.1, .inl this.2.1⟩
  · obtain ⟨c, r, e⟩ := List.exists_cons_of_ne_nil (decimal_ne i)
    have hc : c ∈ decimal i := by rw [e]; exact .head _
    exact ⟨c, hc, (digit_facts c (decimal_chars i c hc)).2.2.1⟩

theorem b64_facts (n : Nat) (h : n < 64) : let c := B64Spec.digit n; c < 127 ∧ c ≥ 43 := by
  have : ∀ n : Fin 64, B64Spec.digit n.1 < 127 ∧ B64Spec.digit n.1 ≥ 43 := by decide +kernel
  exact this ⟨n, h⟩

theorem rfc_chars (l : Bytes) : ∀ c ∈ B64Spec.rfc4648 l, c < 127 ∧ c ≥ 43 := by
  have hd := b64_facts
  induction l using B64Spec.rfc4648.induct with
  | case1 => nofun
  | case2 a =>
    have ha := a.toNat_lt
    intro c hc
    simp only [B64Spec.rfc4648, List.mem_cons, List.not_mem_nil, or_false] at hc
    rcases hc with rfl | rfl | rfl | rfl
    · exact hd _ (by omega)
    · exact hd _ (by omega)
    · decide
    · decide
  | case3 a b =>
    have ha := a.toNat_lt
    have hb := b.toNat_lt
    intro c hc
    simp only [B64Spec.rfc4648, List.mem_cons, List.not_mem_nil, or_false] at hc
    rcases hc with rfl | rfl | rfl | rfl
    · exact hd _ (by omega)
    · exact hd _ (by omega)
    · exact hd _ (by omega)
    · decide
  | case4 a b c r ih =>
    have ha := a.toNat_lt
    have hb := b.toNat_lt
    have hc' := c.toNat_lt
    intro x hx
    simp only [B64Spec.rfc4648, List.mem_cons] at hx
    rcases hx with rfl | rfl | rfl | rfl | hx
    · exact hd _ (by omega)
    · exact hd _ (by omega)
    · exact hd _ (by omega)
    · exact hd _ (by omega)
    · exact ih x hx

theorem rfc_ne {l : Bytes} (h : l ≠ []) : B64Spec.rfc4648 l ≠ [] := by
  match l with
  | [] => exact absurd rfl h
  | [a] => nofun
  | [a, b] => nofun
  | a :: b :: c :: r => nofun

theorem blob_text {s : List Bytes} (h : BlobOk (.blob s)) (hne : s.flatten ≠ []) :
    TextOk (blobStr s) ∧ blobStr s ≠ [] ∧ B64.decode (blobStr s) = .ok s.flatten := by
  have hb := blobText_ok h
  have hd := B64.decode_encode s 72 h.1
  rw [hb.2.1, Out.bind_ok] at hd
  obtain ⟨t, ht, hr⟩ := B64.encode_rfc4648 s 72 h.1
  rw [hb.2.1] at ht
  cases ht
  have hc : ∀ c ∈ blobStr s, c = 10 ∨ (c < 127 ∧ c ≥ 43) := by
    intro c hc
    by_cases h10 : c = 10
    · exact .inl h10
    · refine .inr (rfc_chars s.flatten c ?_)
      rw [← hr, B64Spec.unwrap, List.mem_filter]
      exact ⟨hc, by simpa using h10⟩
  obtain ⟨c, r, e⟩ := List.exists_cons_of_ne_nil (rfc_ne hne)
  have hcm : c ∈ B64Spec.rfc4648 s.flatten := by rw [e]; exact .head _
  have hcs : c ∈ blobStr s := by
    rw [← hr, B64Spec.unwrap, List.mem_filter] at hcm
    exact hcm.1
  have f0 : ∀ c : UInt8, c = 10 ∨ (c < 127 ∧ c ≥ 43) → c ≠ 0 ∧ c < 128 ∧ (c ≥ 32 ∨ c = 10) := byte_all (by decide +kernel)
  have f1 : ∀ c : UInt8, c < 127 ∧ c ≥ 43 → xmlBlank c = false := byte_all (by decide +kernel)
  refine ⟨⟨fun h0 => (f0 _ (hc _ h0)).1 rfl, xmlChars_ascii _ (fun c h => (f0 c (hc c h)).2), .inr ⟨c, hcs, ?_⟩⟩, ?_, hd⟩
  · exact f1 c (rfc_chars _ c hcm)
  · intro e; rw [e] at hcs; cases hcs

theorem takeWhile_noNul {s : Bytes} (h : 0 ∉ s) : s.takeWhile (· ≠ 0) = s := Event.takeWhile_plain h

theorem textKids_content {s : Bytes} (h : TextOk s) : Content (textKids s) s := by
  unfold textKids
  split
  · rename_i h0; exact .inr ⟨.nil, h0⟩
  · rename_i h0
    rw [if_neg]
    · exact .inl (.text .nil)
    · intro hall
      rcases h.2.2 with h | ⟨c, hc, hb⟩
      · exact h0 h
      · have := List.all_eq_true.1 hall c hc
        rw [hb] at this; cases this

theorem textKids_one {s : Bytes} (h : TextOk s) (hne : s ≠ []) : Texts (textKids s) [s] := by
  rcases textKids_content h with h | ⟨_, h⟩
  · exact h
  · exact absurd h hne

/-! ## Values -/

/-- The element for a value. -/
def seenOf (ff : UInt64 → Bytes) (v : Val) : XTree := ((plistOf ff blobStr v).seen).headD .other

abbrev fresh : Bool → Prop := (· = false)

theorem seen_one (n : Bytes) (s : Bytes) : (WTree.elem n [.text s]).seen = [.elem n false (textKids s)] := by
  simp only [WTree.seen, seenAll, List.append_nil, List.isEmpty_cons]

theorem called_self (n : Bytes) (h : n.map lower = n) : Called n n := h

theorem seen_elem (ff : UInt64 → Bytes) (v : Val) : (plistOf ff blobStr v).seen = [seenOf ff v] := by
  cases v with
  | bool b => cases b <;> rfl
  | _ => rfl

mutual
theorem says_seen (fo : FloatOps) (ff : UInt64 → Bytes) : ∀ v : Val, Every (ScalarOk ff) TextOk v →
    Says fo fresh (seenOf ff v) (treeOf (plistBack fo ff v))
  | .null, _ => .null (called_self _ (by decide)) (fun _ => rfl) .nil
  | .bool true, _ => .yes (called_self _ (by decide)) (fun _ => rfl) .nil
  | .bool false, _ => .no (called_self _ (by decide)) (fun _ => rfl) .nil
  | .int i, _ => by
    have h := Says.integer (fo := fo) (Q := fresh) (n := nInteger) rfl (called_self _ (by decide))
      (textKids_one (decimal_text i.toInt) (decimal_ne _))
    rw [readInt_int] at h
    rw [seenOf, plistOf, seen_one]
    exact h
  | .uint u, _ => by
    have h := Says.integer (fo := fo) (Q := fresh) (n := nInteger) rfl (called_self _ (by decide))
      (textKids_one (decimal_text u.toNat) (decimal_ne _))
    rw [readInt_uint fo ff] at h
    rw [seenOf, plistOf, seen_one, plistBack]
    have e : treeOf (scalarBack fo ff (.uint u)) = .scalar (scalarBack fo ff (.uint u)) := by
      rw [scalarBack]; split <;> rfl
    rw [e]
    exact h
  | .flt d, hv => by
    rw [seenOf, plistOf, seen_one]
    exact .real (called_self _ (by decide)) (textKids_one hv.1 hv.2)
  | .str s, hv => by
    rw [seenOf, plistOf, seen_one, takeWhile_noNul hv.1]
    refine .string ?_ (textKids_content hv)
    simp only [Stringy, Called]
    decide
  | .blob s, hv => by
    rw [seenOf, plistOf, seen_one]
    have hb := blob_text hv.1 hv.2
    exact .data (called_self _ (by decide)) (textKids_one hb.1 hb.2.1) hb.2.2 (blobText_ok hv.1).2.2
  | .list xs, hv => by
    refine .array (called_self _ (by decide)) ?_ (items_seen fo ff xs hv)
    intro h
    cases xs with
    | nil => rfl
    | cons x xs => cases h
  | .map m, hv => by
    refine .dict (called_self _ (by decide)) ?_ (entries_seen fo ff m hv)
    intro h
    cases m with
    | nil => rfl
    | cons x xs => cases h
theorem items_seen (fo : FloatOps) (ff : UInt64 → Bytes) : ∀ xs : List Val, EveryList (ScalarOk ff) TextOk xs →
    Items fo fresh (seenAll (plistItems ff blobStr xs)) (treeOfList (plistBackList fo ff xs))
  | [], _ => .nil
  | x :: xs, h => by
    rw [plistItems, seenAll, seen_elem, List.singleton_append]
    exact .elem (says_seen fo ff x h.1) (items_seen fo ff xs h.2)
theorem entries_seen (fo : FloatOps) (ff : UInt64 → Bytes) : ∀ m : List (Bytes × Val), EveryMap (ScalarOk ff) TextOk m →
    Entries fo fresh (seenAll (plistEntries ff blobStr m)) (treeOfMap (plistBackMap fo ff m))
  | [], _ => .nil
  | (k, x) :: m, h => by
    rw [plistEntries, seenAll, seenAll, seen_elem, seen_one, List.singleton_append, List.singleton_append, takeWhile_noNul h.1.1]
    exact .key (called_self _ (by decide)) (textKids_content h.1) (.value (says_seen fo ff x h.2.1) (entries_seen fo ff m h.2.2))
end

mutual
theorem clean_val (ff : UInt64 → Bytes) : ∀ v : Val, Every (ScalarOk ff) TextOk v → (plistOf ff blobStr v).Clean
  | .null, _ => trivial
  | .bool true, _ => trivial
  | .bool false, _ => trivial
  | .int i, _ => ⟨(decimal_text i.toInt).2.1, trivial⟩
  | .uint u, _ => ⟨(decimal_text u.toNat).2.1, trivial⟩
  | .flt d, hv => ⟨hv.1.2.1, trivial⟩
  | .str s, hv => ⟨by rw [WTree.Clean, takeWhile_noNul hv.1]; exact hv.2.1, trivial⟩
  | .blob s, hv => ⟨(blob_text hv.1 hv.2).1.2.1, trivial⟩
  | .list xs, hv => clean_items ff xs hv
  | .map m, hv => clean_entries ff m hv
theorem clean_items (ff : UInt64 → Bytes) : ∀ xs : List Val, EveryList (ScalarOk ff) TextOk xs → CleanAll (plistItems ff blobStr xs)
  | [], _ => trivial
  | x :: xs, h => ⟨clean_val ff x h.1, clean_items ff xs h.2⟩
theorem clean_entries (ff : UInt64 → Bytes) : ∀ m : List (Bytes × Val), EveryMap (ScalarOk ff) TextOk m →
    CleanAll (plistEntries ff blobStr m)
  | [], _ => trivial
  | (k, x) :: m, h =>
    ⟨⟨by rw [WTree.Clean, takeWhile_noNul h.1.1]; exact h.1.2.1, trivial⟩, clean_val ff x h.2.1, clean_entries ff m h.2.2⟩
end

mutual
theorem back_wf (fo : FloatOps) (ff : UInt64 → Bytes) : ∀ v : Val, v.WF → (plistBack fo ff v).WF
  | .list xs, h => by
    simp only [Val.WF, plistBack] at h ⊢; exact backList_wf fo ff xs h
  | .map m, h => by
    simp only [Val.WF, plistBack] at h ⊢
    exact ⟨sorted_back fo ff m h.1, backMap_wf fo ff m h.2⟩
  | .null, h => by simpa [plistBack] using h
  | .bool _, h => by simpa [plistBack] using h
  | .int _, h => by simpa [plistBack] using h
  | .uint _, _ => by simp only [plistBack, scalarBack]; split <;> simp [Val.WF]
  | .flt _, h => by simp [plistBack, scalarBack, Val.WF]
  | .str _, h => by simpa [plistBack] using h
  | .blob _, _ => by simp [plistBack, scalarBack, Val.WF]
theorem backList_wf (fo : FloatOps) (ff : UInt64 → Bytes) : ∀ xs : List Val, WFList xs → WFList (plistBackList fo ff xs)
  | [], _ => by simp [plistBackList, WFList]
  | x :: xs, h => by
    simp only [WFList, plistBackList] at h ⊢
    exact ⟨back_wf fo ff x h.1, backList_wf fo ff xs h.2⟩
theorem backMap_wf (fo : FloatOps) (ff : UInt64 → Bytes) : ∀ m : List (Bytes × Val), WFMap m → WFMap (plistBackMap fo ff m)
  | [], _ => by simp [plistBackMap, WFMap]
  | (k, x) :: m, h => by
    simp only [WFMap, plistBackMap] at h ⊢
    exact ⟨back_wf fo ff x h.1, backMap_wf fo ff m h.2⟩
theorem sorted_back (fo : FloatOps) (ff : UInt64 → Bytes) : ∀ m : List (Bytes × Val), AMap.Sorted m → AMap.Sorted (plistBackMap fo ff m)
  | [], _ => by simp [plistBackMap, AMap.Sorted]
  | (k, x) :: m, h => by
    simp only [plistBackMap, AMap.Sorted] at h ⊢
    refine ⟨?_, sorted_back fo ff m h.2⟩
    intro q hq
    have : ∀ (m : List (Bytes × Val)) (q : Bytes × Val), q ∈ plistBackMap fo ff m → ∃ q' ∈ m, q'.1 = q.1 := by
      intro m
      induction m with
      | nil => intro q hq; simp [plistBackMap] at hq
      | cons p m ih =>
        obtain ⟨k', x'⟩ := p
        intro q hq
        simp only [plistBackMap, List.mem_cons] at hq
        rcases hq with rfl | hq
        · exact ⟨(k', x'), .head _, rfl⟩
        · obtain ⟨q', h1, h2⟩ := ih q hq
          exact ⟨q', .tail _ h1, h2⟩
    obtain ⟨q', h1, h2⟩ := this m q hq
    rw [← h2]
    exact h.1 q' h1
end

mutual
theorem every_blob (ff : UInt64 → Bytes) : ∀ v : Val, Every (ScalarOk ff) TextOk v → Every BlobOk (fun _ => True) v
  | .null, _ => trivial
  | .bool _, _ => trivial
  | .int i, _ => trivial
  | .uint u, _ => trivial
  | .flt d, hv => trivial
  | .str s, hv => trivial
  | .blob s, hv => hv.1
  | .list xs, hv => every_blobs ff xs hv
  | .map m, hv => every_blobm ff m hv
theorem every_blobs (ff : UInt64 → Bytes) : ∀ xs : List Val, EveryList (ScalarOk ff) TextOk xs → EveryList BlobOk (fun _ => True) xs
  | [], _ => trivial
  | x :: xs, h => ⟨every_blob ff x h.1, every_blobs ff xs h.2⟩
theorem every_blobm (ff : UInt64 → Bytes) : ∀ m : List (Bytes × Val), EveryMap (ScalarOk ff) TextOk m → EveryMap BlobOk (fun _ => True) m
  | [], _ => trivial
  | (k, x) :: m, h => ⟨trivial, every_blob ff x h.2.1, every_blobm ff m h.2.2⟩
end

end Verif.Xml
