import Verif.Yaml.Emit
/-!
# C87, C88 What is written as YAML
-/

namespace Verif.Yaml
open Verif Verif.JsonDrv
open Verif.Event (Call cstr)
open Verif.Xml (Every EveryList EveryMap decimal)

/-- The text of a blob: its bytes as Base64 (RFC 4648), in one line. -/
abbrev base64 (s : List Bytes) : Bytes := B64Spec.rfc4648 s.flatten

theorem encFlat_rfc (l : Bytes) (sc : Nat) : B64.encFlat 0 sc l = B64Spec.rfc4648 l := by
  induction sc, l using B64.encFlat.induct with
  | case1 => rfl
  | case2 sc a =>
    have ha := a.toNat_lt
    have e1 : a.toNat * 65536 / 262144 = a.toNat / 4 := by omega
    have e2 : a.toNat * 65536 / 4096 % 64 = a.toNat % 4 * 16 := by omega
    simp [B64.encFlat, B64Spec.rfc4648, e1, e2]
  | case3 sc a b =>
    have ha := a.toNat_lt
    have hb := b.toNat_lt
    have e1 : (a.toNat * 65536 + b.toNat * 256) / 262144 = a.toNat / 4 := by omega
    have e2 : (a.toNat * 65536 + b.toNat * 256) / 4096 % 64 = a.toNat % 4 * 16 + b.toNat / 16 := by omega
    have e3 : (a.toNat * 65536 + b.toNat * 256) / 64 % 64 = b.toNat % 16 * 4 := by omega
    simp [B64.encFlat, B64Spec.rfc4648, e1, e2, e3]
  | case4 sc a b c rest _ ih =>
    have ha := a.toNat_lt
    have hb := b.toNat_lt
    have hc := c.toNat_lt
    have e1 : (a.toNat * 65536 + b.toNat * 256 + c.toNat) / 262144 = a.toNat / 4 := by omega
    have e2 : (a.toNat * 65536 + b.toNat * 256 + c.toNat) / 4096 % 64 = a.toNat % 4 * 16 + b.toNat / 16 := by omega
    have e3 : (a.toNat * 65536 + b.toNat * 256 + c.toNat) / 64 % 64 = b.toNat % 16 * 4 + c.toNat / 64 := by omega
    have e4 : (a.toNat * 65536 + b.toNat * 256 + c.toNat) % 64 = c.toNat % 64 := by omega
    simp [B64.encFlat, B64Spec.rfc4648, e1, e2, e3, e4, ih]

theorem encode_line {s : List Bytes} (h : ∀ x ∈ s, x ≠ []) : B64.encode s 0 = .ok (base64 s) := by
  rw [B64.encode_flat s 0 h, if_neg (by omega), encFlat_rfc]

theorem blobText_ok {s : List Bytes} (h : Xml.BlobOk (.blob s)) : blobText s = .ok (base64 s) := by
  have hl : (UInt32.ofNat s.flatten.length).toNat = s.flatten.length := Xml.toNat_ofNat_small (by have := h.2; omega)
  have he := encode_line h.1
  obtain ⟨t, ht, hf⟩ := B64.encode_fits_partial s (UInt32.ofNat s.flatten.length) 0 h.1 hl.symm (by rw [hl]; have := h.2; omega)
  rw [show (0 : UInt32).toNat = 0 from rfl, he] at ht
  cases ht
  rw [B64.toNat_encodeSize _ _ (by rw [hl]; have := h.2; omega), hl, if_neg (by decide)] at hf
  rw [blobText, he, Out.bind_ok, if_pos]
  · rfl
  · rw [B64.toNat_encodeSize _ _ (by rw [hl]; have := h.2; omega), hl, if_pos (by decide)]
    have := Nat.zero_le ((4 * s.flatten.length / 3 + 4) / (72 : UInt32).toNat)
    omega

theorem printable_base64 (s : List Bytes) : Printable (base64 s) := by
  intro c hc
  have f : ∀ c : UInt8, c < 127 ∧ c ≥ 43 → 32 ≤ c ∧ c < 127 := Xml.byte_all (by decide +kernel)
  exact f c (Xml.rfc_chars _ c hc)

theorem printable_decimal (i : Int) : Printable (decimal i) := by
  intro c hc
  have f : ∀ c : UInt8, isDigit c = true ∨ c = 45 → 32 ≤ c ∧ c < 127 := Xml.byte_all (by decide +kernel)
  exact f c (Xml.decimal_chars i c hc)

/-- The characters of words. -/
def WordChar (c : UInt8) : Prop := isDigit c = true ∨ (65 ≤ c ∧ c ≤ 90) ∨ (97 ≤ c ∧ c ≤ 122) ∨ c = 46 ∨ c = 43 ∨ c = 45

instance (c : UInt8) : Decidable (WordChar c) := by unfold WordChar; infer_instance

theorem wordChar_printable : ∀ c : UInt8, WordChar c → 32 ≤ c ∧ c < 127 := Xml.byte_all (by decide +kernel)

theorem intPart_digits {ip : Bytes} (h : JsonTok.IntPart ip) : ip ≠ [] ∧ ∀ c ∈ ip, isDigit c = true := by
  rcases h with rfl | ⟨d, ds, rfl, _, h⟩
  · exact ⟨nofun, by decide⟩
  · exact ⟨nofun, h⟩

theorem floatText_chars {t : Bytes} (h : JsonTok.FloatText t) : ∀ c ∈ t, WordChar c := by
  obtain ⟨sg, ip, fp, ex, rfl, hsg, hip, hfp, hex⟩ := h
  intro c hc
  simp only [List.append_assoc, List.mem_append] at hc
  rcases hc with hc | hc | hc | hc | hc
  · rcases hsg with rfl | rfl
    · cases hc
    · rw [List.mem_singleton] at hc; subst hc; decide
  · exact .inl ((intPart_digits hip).2 c hc)
  · rw [List.mem_singleton] at hc; subst hc; decide
  · exact .inl (hfp c hc)
  · rcases hex with rfl | ⟨x, sn, ds, rfl, hx, hsn, _, hds⟩
    · cases hc
    · simp only [List.mem_cons, List.mem_append] at hc
      rcases hc with rfl | hc | hc
      · rcases hx with rfl | rfl <;> decide
      · rcases hsn with rfl | rfl | rfl
        · cases hc
        · rw [List.mem_singleton] at hc; subst hc; decide
        · rw [List.mem_singleton] at hc; subst hc; decide
      · exact .inl (hds c hc)

theorem printable_double {ff : UInt64 → Bytes} (hf : DigitsLaw ff) (d : UInt64) : Printable (doubleText ff d) := by
  unfold doubleText
  split
  · unfold Printable; decide
  · split
    · unfold Printable; decide
    · split
      · unfold Printable; decide
      · rename_i h1 h2 h3
        intro c hc
        exact wordChar_printable c (floatText_chars (hf d (by simpa using h1) h2 h3) c hc)

/-! ## Values -/

section
variable {utf8 : Bytes → Bool} {ff : UInt64 → Bytes} {cf : Conf}

theorem emits_append (e : Em) (a b : List Call) : emits utf8 ff cf e (a ++ b) = (do
    let e ← emits utf8 ff cf e a
    emits utf8 ff cf e b) := by
  induction a generalizing e with
  | nil => rfl
  | cons c a ih =>
    simp only [List.cons_append, emits]
    cases emit utf8 ff cf e c with
    | throw x => rfl
    | ub => rfl
    | ok e1 => simp only [Out.bind_ok, ih]

theorem emits_seq {e e' e'' : Em} {a b : List Call} (h : emits utf8 ff cf e a = .ok e') (h' : emits utf8 ff cf e' b = .ok e'') :
    emits utf8 ff cf e (a ++ b) = .ok e'' := by
  rw [emits_append, h, Out.bind_ok, h']

theorem emits_one {e e' : Em} {c : Call} (h : emit utf8 ff cf e c = .ok e') : emits utf8 ff cf e [c] = .ok e' := by
  simp only [emits, h, Out.bind_ok]

theorem scalar_ok {c c' : List Ctx} {out : List WEv} {tag t i st} (hc : afterNode c = some c') (hu : utf8 t = true) :
    putScalar utf8 cf ⟨c, true, false, out⟩ tag t i st = .ok ⟨c', true, false, out ++ [.scalar tag t i i st]⟩ := by
  unfold putScalar
  rw [if_neg (by nofun)]
  show (if utf8 t = true then give ⟨c, true, false, out⟩ _ else _) = _
  rw [if_pos hu, give, show accept c (.scalar tag t i i st) = some c' from hc]

theorem uint_decimal (n : Nat) : decimal (n : Int) = natDec n := by
  rw [decimal, if_neg (by omega)]; rfl

mutual
theorem emits_val (hu : ∀ t, Printable t → utf8 t = true) (hf : DigitsLaw ff) : ∀ (v : Val) (c c' : List Ctx) (out : List WEv),
    Every (Writable utf8) (fun k => utf8 (k.takeWhile (· ≠ 0)) = true) v → afterNode c = some c' →
    emits utf8 ff cf ⟨c, true, false, out⟩ (Event.valTree v).calls = .ok ⟨c', true, false, out ++ (nodeOf cf ff base64 v).events⟩
  | .null, c, c', out, _, hc => emits_one (scalar_ok hc (hu _ (by unfold Printable; decide)))
  | .bool true, c, c', out, _, hc => emits_one (scalar_ok hc (hu _ (by unfold Printable; decide)))
  | .bool false, c, c', out, _, hc => emits_one (scalar_ok hc (hu _ (by unfold Printable; decide)))
  | .int i, c, c', out, _, hc => emits_one (scalar_ok hc (hu _ (printable_decimal i.toInt)))
  | .uint u, c, c', out, _, hc => by
    have h := scalar_ok (utf8 := utf8) (cf := cf) (out := out) (tag := none) (i := true) (st := .plain) hc (hu _ (printable_decimal u.toNat))
    rw [uint_decimal] at h
    rw [nodeOf, uint_decimal]
    exact emits_one h
  | .flt x, c, c', out, _, hc => emits_one (scalar_ok hc (hu _ (printable_double hf x)))
  | .str s, c, c', out, h, hc => emits_one (scalar_ok hc h)
  | .blob s, c, c', out, h, hc => by
    refine emits_one ?_
    show emit utf8 ff cf _ (.blob s) = _
    simp only [emit, inside, if_true, Out.bind_ok, blobText_ok h]
    exact scalar_ok hc (hu _ (printable_base64 s))
  | .list xs, c, c', out, h, hc => by
    rw [Event.valTree, Event.Tree.calls, nodeOf, WNode.events]
    refine emits_seq (a := [_]) (emits_one (e' := ⟨.item :: c', true, false, out ++ [.seqStart cf.listStyle]⟩) ?_)
      (emits_seq (emits_items hu hf xs c' _ h) (emits_one ?_))
    · show give _ _ = _
      rw [give, show accept c (.seqStart cf.listStyle) = some (.item :: c') from by simp only [accept, hc, Option.map]]
    · show Out.ok (Em.mk c' true false _) = _
      rw [List.append_assoc, List.append_assoc, List.singleton_append]
  | .map m, c, c', out, h, hc => by
    rw [Event.valTree, Event.Tree.calls, nodeOf, WNode.events]
    refine emits_seq (a := [_]) (emits_one (e' := ⟨.key :: c', true, false, out ++ [.mapStart cf.mapStyle]⟩) ?_)
      (emits_seq (emits_entries hu hf m c' _ h) (emits_one ?_))
    · show give _ _ = _
      rw [give, show accept c (.mapStart cf.mapStyle) = some (.key :: c') from by simp only [accept, hc, Option.map]]
    · show Out.ok (Em.mk c' true false _) = _
      rw [List.append_assoc, List.append_assoc, List.singleton_append]
theorem emits_items (hu : ∀ t, Printable t → utf8 t = true) (hf : DigitsLaw ff) : ∀ (xs : List Val) (c : List Ctx) (out : List WEv),
    EveryList (Writable utf8) (fun k => utf8 (k.takeWhile (· ≠ 0)) = true) xs →
    emits utf8 ff cf ⟨.item :: c, true, false, out⟩ (Event.callsList (Event.valTrees xs)) =
      .ok ⟨.item :: c, true, false, out ++ wEvents (nodesOf cf ff base64 xs)⟩
  | [], c, out, _ => by rw [nodesOf, wEvents, List.append_nil]; rfl
  | x :: xs, c, out, h => by
    rw [Event.valTrees, Event.callsList, nodesOf, wEvents, ← List.append_assoc]
    exact emits_seq (emits_val hu hf x (.item :: c) _ out h.1 rfl) (emits_items hu hf xs c _ h.2)
theorem emits_entries (hu : ∀ t, Printable t → utf8 t = true) (hf : DigitsLaw ff) : ∀ (m : List (Bytes × Val)) (c : List Ctx) (out : List WEv),
    EveryMap (Writable utf8) (fun k => utf8 (k.takeWhile (· ≠ 0)) = true) m →
    emits utf8 ff cf ⟨.key :: c, true, false, out⟩ (Event.callsPairs (Event.valPairs m)) =
      .ok ⟨.key :: c, true, false, out ++ wPairs (pairsOf cf ff base64 m)⟩
  | [], c, out, _ => by rw [pairsOf, wPairs, List.append_nil]; rfl
  | (k, x) :: m, c, out, h => by
    rw [Event.valPairs, Event.callsPairs, pairsOf, wPairs, ← List.append_assoc, ← List.append_assoc]
    exact emits_seq (a := [_]) (emits_one (scalar_ok (c' := .value :: c) rfl h.1))
      (emits_seq (emits_val hu hf x (.value :: c) _ _ h.2.1 rfl) (emits_entries hu hf m c _ h.2.2))
end

/-- The first call begins a document. -/
theorem emit_begin {c : Call} (h : c ≠ .beginDoc) (out : List WEv) :
    emit utf8 ff cf ⟨[], false, false, out⟩ c = emit utf8 ff cf ⟨[.node], true, false, out ++ [.docStart cf.implicitBegin]⟩ c := by
  cases c with
  | beginDoc => exact absurd rfl h
  | bool b => cases b <;> rfl
  | _ => rfl

theorem calls_head (v : Val) : ∃ c cs, (Event.valTree v).calls = c :: cs ∧ c ≠ .beginDoc := by
  cases v with
  | bool b => cases b <;> exact ⟨_, _, rfl, nofun⟩
  | _ => exact ⟨_, _, rfl, nofun⟩

theorem emits_begin (v : Val) (out : List WEv) : emits utf8 ff cf ⟨[], false, false, out⟩ (Event.valTree v).calls =
    emits utf8 ff cf ⟨[.node], true, false, out ++ [.docStart cf.implicitBegin]⟩ (Event.valTree v).calls := by
  obtain ⟨c, cs, e, hc⟩ := calls_head v
  rw [e, emits, emits, emit_begin hc]

end

/-- C87.  What `Serialize` writes: a stream of one document, the node of the value.  Scalars keep their text, lists and
maps their order; texts end at their first NUL.  (`utf8`: the texts libyaml takes, at least printable ASCII; `ff`: the
digits printed for doubles.  Blobs with empty slabs are missing.) -/
theorem yaml_written_partial (utf8 : Bytes → Bool) (ff : UInt64 → Bytes) (cf : Conf) (hu : ∀ t, Printable t → utf8 t = true) (hf : DigitsLaw ff)
    (v : Val) (hv : Every (Writable utf8) (fun k => utf8 (k.takeWhile (· ≠ 0)) = true) v) :
    serialize utf8 ff cf v = .ok (wStream [⟨cf.implicitBegin, cf.implicitEnd, nodeOf cf ff base64 v⟩]) := by
  unfold serialize
  rw [Em.init, emits_begin, emits_val hu hf v [.node] [.docEnd] _ hv rfl, Out.bind_ok]
  show Out.ok _ = _
  simp only [wStream, List.flatMap_cons, List.flatMap_nil, WDoc.events, List.append_nil, List.cons_append, List.append_assoc, List.nil_append]

/-- The hypotheses hold of a map with a list, a double and a blob. -/
example : Every (Writable fun _ => true) (fun _ => True) (.map [([97], .list [.int (-1), .flt 0, .blob [[1, 2], [3]]])]) ∧
    DigitsLaw (fun _ => [49, 46, 48]) := by
  refine ⟨⟨trivial, ⟨trivial, trivial, ⟨by decide, by decide⟩, trivial⟩, trivial⟩, fun _ _ _ _ => ⟨[], [49], [48], [], rfl, .inl rfl, ?_, by decide, .inl rfl⟩⟩
  exact .inr ⟨49, [], rfl, by decide, by decide⟩

/-- {"a": [1, "x"]} -/
example : serialize (fun _ => true) (fun _ => []) Conf.init (.map [([97], .list [.uint 1, .str [120]])]) =
    .ok [.streamStart, .docStart false, .mapStart .any, .scalar none [97] true true .any, .seqStart .any,
      .scalar none [49] true true .plain, .scalar none [120] true true .any, .seqEnd, .mapEnd, .docEnd false, .streamEnd] := by
  simp only [serialize, Event.valTree, Event.valTrees, Event.valPairs, Event.Tree.calls, Event.callsList, Event.callsPairs, Event.Atom.call,
    List.append_nil, List.cons_append, List.nil_append, emits, emit, natDec_lt (show (1 : UInt64).toNat < 10 by decide)]
  rfl

/-- C87.  Several values, each between `BeginDocument` and `EndDocument`: a stream of as many documents. -/
theorem yaml_written_all_partial (utf8 : Bytes → Bool) (ff : UInt64 → Bytes) (cf : Conf) (hu : ∀ t, Printable t → utf8 t = true) (hf : DigitsLaw ff)
    (vs : List Val) (hv : ∀ v ∈ vs, Every (Writable utf8) (fun k => utf8 (k.takeWhile (· ≠ 0)) = true) v) :
    serializeAll utf8 ff cf vs = .ok (wStream (vs.map fun v => ⟨cf.implicitBegin, cf.implicitEnd, nodeOf cf ff base64 v⟩)) := by
  have key : ∀ (vs : List Val) (out : List WEv), (∀ v ∈ vs, Every (Writable utf8) (fun k => utf8 (k.takeWhile (· ≠ 0)) = true) v) →
      emits utf8 ff cf ⟨[], false, false, out⟩ (vs.flatMap (fun v => .beginDoc :: ((Event.valTree v).calls ++ [.endDoc]))) =
        .ok ⟨[], false, false, out ++ (vs.map fun v => (⟨cf.implicitBegin, cf.implicitEnd, nodeOf cf ff base64 v⟩ : WDoc)).flatMap WDoc.events⟩ := by
    intro vs
    induction vs with
    | nil => intro out _; simp only [List.flatMap_nil, List.map_nil, List.append_nil, emits]
    | cons v vs ih =>
      intro out h
      rw [List.flatMap_cons, List.map_cons, List.flatMap_cons, ← List.append_assoc]
      refine emits_seq (emits_seq (a := [_]) (emits_one (e' := ⟨[.node], true, false, out ++ [.docStart cf.implicitBegin]⟩) rfl)
        (emits_seq (emits_val hu hf v [.node] [.docEnd] _ (h v (.head _)) rfl) (emits_one ?_))) (ih _ (fun w hw => h w (.tail _ hw)))
      show Out.ok (Em.mk [] false false _) = _
      simp only [WDoc.events, List.append_assoc, List.cons_append, List.nil_append]
  unfold serializeAll
  rw [Em.init, key vs _ hv, Out.bind_ok]
  show Out.ok _ = _
  simp only [wStream, List.cons_append, List.nil_append]

/-- C87 is false of blobs with an empty slab: reading past it is undefined behaviour. -/
theorem yaml_written_false (utf8 : Bytes → Bool) (ff : UInt64 → Bytes) (cf : Conf) : serialize utf8 ff cf (.blob [[]]) = .ub := by
  have h : blobText [[]] = .ub := by rw [blobText, B64.encode_empty_slab_ub]; rfl
  simp only [serialize, Event.valTree, Event.Tree.calls, Event.Atom.call, emits, emit, Em.init, h]
  rfl

/-! ### Texts libyaml does not take -/

theorem emits_str {utf8 : Bytes → Bool} {ff : UInt64 → Bytes} {cf : Conf} {s : Bytes} : ∀ {cs : List Call} {e e' : Em},
    emits utf8 ff cf e cs = .ok e' → Call.str s ∈ cs → utf8 (s.takeWhile (· ≠ 0)) = true
  | [], _, _, _, hm => by cases hm
  | c :: cs, e, e', h, hm => by
    obtain ⟨e1, h1, h2⟩ := Out.bind_eq_ok.1 h
    cases hm with
    | tail _ hm => exact emits_str h2 hm
    | head =>
      simp only [emit, putScalar] at h1
      split at h1
      · cases h1
      · obtain ⟨e2, _, h3⟩ := Out.bind_eq_ok.1 h1
        split at h3
        · assumption
        · cases h3

mutual
/-- The strings and keys of a value. -/
def texts : Val → List Bytes
  | .list xs => textsList xs
  | .map m => textsMap m
  | .str s => [s]
  | _ => []
def textsList : List Val → List Bytes
  | [] => []
  | x :: xs => texts x ++ textsList xs
def textsMap : List (Bytes × Val) → List Bytes
  | [] => []
  | (k, x) :: m => k :: (texts x ++ textsMap m)
end

mutual
theorem texts_calls {s : Bytes} : ∀ (v : Val), s ∈ texts v → Call.str s ∈ (Event.valTree v).calls
  | .null, h => by cases h
  | .bool _, h => by cases h
  | .int _, h => by cases h
  | .uint _, h => by cases h
  | .flt _, h => by cases h
  | .blob _, h => by cases h
  | .str t, h => by rw [texts, List.mem_singleton] at h; subst h; exact .head _
  | .list xs, h => by
    rw [Event.valTree, Event.Tree.calls]
    exact .tail _ (List.mem_append_left _ (texts_list xs h))
  | .map m, h => by
    rw [Event.valTree, Event.Tree.calls]
    exact .tail _ (List.mem_append_left _ (texts_map m h))
theorem texts_list {s : Bytes} : ∀ (xs : List Val), s ∈ textsList xs → Call.str s ∈ Event.callsList (Event.valTrees xs)
  | [], h => by cases h
  | x :: xs, h => by
    rw [Event.valTrees, Event.callsList]
    rcases List.mem_append.1 h with h | h
    · exact List.mem_append_left _ (texts_calls x h)
    · exact List.mem_append_right _ (texts_list xs h)
theorem texts_map {s : Bytes} : ∀ (m : List (Bytes × Val)), s ∈ textsMap m → Call.str s ∈ Event.callsPairs (Event.valPairs m)
  | [], h => by cases h
  | (k, x) :: m, h => by
    rw [Event.valPairs, Event.callsPairs]
    rw [textsMap, List.mem_cons, List.mem_append] at h
    rcases h with rfl | h | h
    · exact .head _
    · exact .tail _ (List.mem_append_left _ (texts_calls x h))
    · exact .tail _ (List.mem_append_right _ (texts_map m h))
end

/-- C87.  A value with a string or key (up to its first NUL) that libyaml does not take is never written. -/
theorem yaml_refused (utf8 : Bytes → Bool) (ff : UInt64 → Bytes) (cf : Conf) (v : Val) (s : Bytes) (hs : s ∈ texts v)
    (hu : utf8 (s.takeWhile (· ≠ 0)) = false) (evs : List WEv) : serialize utf8 ff cf v ≠ .ok evs := by
  intro h
  obtain ⟨e, h1, _⟩ := Out.bind_eq_ok.1 h
  have := emits_str h1 (texts_calls v hs)
  rw [hu] at this
  cases this

/-! ## Any sequence of calls -/

/-- C88.  Whatever calls are made: if all of them and `Close` return, a stream of whole documents has been written. -/
theorem yaml_well_formed (utf8 : Bytes → Bool) (ff : UInt64 → Bytes) (cf : Conf) (cs : List Call) (e e' : Em)
    (h : emits utf8 ff cf Em.init cs = .ok e) (hc : close cf e = .ok e') : ∃ ds, e'.out = wStream ds :=
  (close_good (emits_good good_init h).1 (emits_good good_init h).2 hc).2

/-- Two lists and a half: the third is refused with the end of the document. -/
example : (∃ e, emits (fun _ => true) (fun _ => []) Conf.init Em.init [.beginList 0, .endList, .beginDoc, .beginList 0, .null, .endList] = .ok e ∧
      ∃ e', close Conf.init e = .ok e') ∧
    ∃ e, emits (fun _ => true) (fun _ => []) Conf.init Em.init [.beginList 0, .null] = .ok e ∧ close Conf.init e = .throw .runtime :=
  ⟨⟨_, rfl, _, rfl⟩, _, rfl, rfl⟩

/-- C88.  What has been written before `Close`, at any time: whole documents, and the beginning of another. -/
theorem yaml_prefix (utf8 : Bytes → Bool) (ff : UInt64 → Bytes) (cf : Conf) (cs : List Call) (e : Em)
    (h : emits utf8 ff cf Em.init cs = .ok e) : ∃ (ds : List WDoc) (rest : List WEv), e.out = .streamStart :: (ds.flatMap WDoc.events ++ rest) ∧
      (e.inDoc = false → rest = []) := by
  obtain ⟨ds, suf, ho, h | h⟩ := (emits_good good_init h).1
  · exact ⟨ds, suf, ho, fun _ => h.2.2⟩
  · exact ⟨ds, suf, ho, fun he => by rw [he] at h; cases h.1⟩

/-- C88.  A closed emitter stays as it is: `Close` does nothing, every other call throws. -/
theorem yaml_closed (utf8 : Bytes → Bool) (ff : UInt64 → Bytes) (cf : Conf) (cs : List Call) (e e' : Em)
    (h : emits utf8 ff cf Em.init cs = .ok e) (hc : close cf e = .ok e') :
    close cf e' = .ok e' ∧ ∀ c, emit utf8 ff cf e' c = .throw .runtime := by
  have hcl := (close_good (emits_good good_init h).1 (emits_good good_init h).2 hc).1
  refine ⟨by rw [close, if_pos hcl], fun c => ?_⟩
  cases c with
  | bool b => cases b <;> simp only [emit, putScalar, hcl, if_true]
  | _ => simp only [emit, putScalar, put, hcl, if_true]

/-- C88.  Two values one after the other without a new document: the second one throws. -/
theorem yaml_two_values (utf8 : Bytes → Bool) (ff : UInt64 → Bytes) (cf : Conf) (hu : ∀ t, Printable t → utf8 t = true) (hf : DigitsLaw ff)
    (v w : Val) (hv : Every (Writable utf8) (fun k => utf8 (k.takeWhile (· ≠ 0)) = true) v)
    (hw : Every (Writable utf8) (fun k => utf8 (k.takeWhile (· ≠ 0)) = true) w) :
    emits utf8 ff cf Em.init ((Event.valTree v).calls ++ (Event.valTree w).calls) = .throw .runtime := by
  rw [emits_append, Em.init, emits_begin, emits_val hu hf v [.node] [.docEnd] _ hv rfl, Out.bind_ok]
  have hs : ∀ tag t i st out, putScalar utf8 cf ⟨[.docEnd], true, false, out⟩ tag t i st = .throw .runtime := by
    intro tag t i st out
    simp only [putScalar, inside, if_true, Out.bind_ok]
    rw [if_neg (by nofun)]
    split <;> rfl
  have key : ∀ c cs out, emit utf8 ff cf ⟨[.docEnd], true, false, out⟩ c = .throw .runtime → emits utf8 ff cf ⟨[.docEnd], true, false, out⟩ (c :: cs) = .throw .runtime := by
    intro c cs out h
    rw [emits, h]; rfl
  cases w with
  | null => exact key _ _ _ (hs _ _ _ _ _)
  | bool b => cases b <;> exact key _ _ _ (hs _ _ _ _ _)
  | int i => exact key _ _ _ (hs _ _ _ _ _)
  | uint i => exact key _ _ _ (hs _ _ _ _ _)
  | flt i => exact key _ _ _ (hs _ _ _ _ _)
  | str i => exact key _ _ _ (hs _ _ _ _ _)
  | blob s =>
    refine key _ _ _ ?_
    show emit utf8 ff cf _ (.blob s) = _
    simp only [emit, inside, if_true, Out.bind_ok, blobText_ok hw]
    exact hs _ _ _ _ _
  | list xs => exact key _ _ _ rfl
  | map m => exact key _ _ _ rfl

end Verif.Yaml
