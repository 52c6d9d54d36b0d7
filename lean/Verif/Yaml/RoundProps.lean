import Verif.Yaml.Round
import Verif.Val.CompareProps
import Verif.Val.CompareProps
/-!
# C89 YAML round trips
-/

namespace Verif.Yaml
open Verif Verif.JsonDrv
open Verif.Xml (Every EveryList EveryMap decimal)

section
variable {P P' : Val → Prop} {K K' : Bytes → Prop}

mutual
theorem every_imp (hp : ∀ v, P v → P' v) (hk : ∀ k, K k → K' k) : ∀ v : Val, Every P K v → Every P' K' v
  | .null, h => hp _ h
  | .bool _, h => hp _ h
  | .int _, h => hp _ h
  | .uint _, h => hp _ h
  | .flt _, h => hp _ h
  | .str _, h => hp _ h
  | .blob _, h => hp _ h
  | .list xs, h => every_impList hp hk xs h
  | .map m, h => every_impMap hp hk m h
theorem every_impList (hp : ∀ v, P v → P' v) (hk : ∀ k, K k → K' k) : ∀ xs : List Val, EveryList P K xs → EveryList P' K' xs
  | [], _ => trivial
  | x :: xs, h => ⟨every_imp hp hk x h.1, every_impList hp hk xs h.2⟩
theorem every_impMap (hp : ∀ v, P v → P' v) (hk : ∀ k, K k → K' k) : ∀ m : List (Bytes × Val), EveryMap P K m → EveryMap P' K' m
  | [], _ => trivial
  | (_, x) :: m, h => ⟨hk _ h.1, every_imp hp hk x h.2.1, every_impMap hp hk m h.2.2⟩
end
end

section
variable {utf8 : Bytes → Bool} {plain : Nat → Bytes → Bool}

theorem strOk_taken {s : Bytes} (h : StrOk utf8 plain s) : utf8 (s.takeWhile (· ≠ 0)) = true := by
  rw [Guess.takeWhile_noNul h.1]; exact h.2.1

theorem writable_of {v : Val} (h : Every (ScalarOk utf8 plain) (StrOk utf8 plain) v) :
    Every (Writable utf8) (fun k => utf8 (k.takeWhile (· ≠ 0)) = true) v := by
  refine every_imp (fun x hx => ?_) (fun _ => strOk_taken) v h
  cases x with
  | str s => exact strOk_taken hx
  | blob s => exact hx
  | _ => trivial

/-- The documents of a stream read back. -/
theorem read_docs {fo : FloatOps} {ff : UInt64 → Bytes} {cf : Conf} (hl : LibLaw utf8 plain) (hf : DigitsLaw ff) : ∀ (vs : List Val) (rest : List WEv),
    (∀ v ∈ vs, Every (ScalarOk utf8 plain) (StrOk utf8 plain) v ∧ v.WF) →
    ∃ ys, readerEvents plain ((vs.map fun v => (⟨cf.implicitBegin, cf.implicitEnd, nodeOf cf ff base64 v⟩ : WDoc)).flatMap WDoc.events ++ rest) =
        ys.flatMap docEvents ++ readerEvents plain rest ∧
      DocsMean fo (· = false) Rule.first ys (vs.map (yamlBack fo ff))
  | [], rest, _ => ⟨[], rfl, .nil⟩
  | v :: vs, rest, h => by
    obtain ⟨ys, h1, h2⟩ := read_docs (fo := fo) hl hf vs rest (fun w hw => h w (.tail _ hw))
    obtain ⟨y, h3, h4⟩ := read_val (fo := fo) (cf := cf) hl hf v (.docEnd cf.implicitEnd ::
      ((vs.map fun v => (⟨cf.implicitBegin, cf.implicitEnd, nodeOf cf ff base64 v⟩ : WDoc)).flatMap WDoc.events ++ rest)) (h v (.head _)).1 (h v (.head _)).2
    refine ⟨y :: ys, ?_, .cons h4 h2⟩
    rw [List.map_cons, List.flatMap_cons, WDoc.events, List.append_assoc]
    simp only [List.cons_append, List.append_assoc, List.nil_append]
    rw [readerEvents_append, h3, readerEvents_append, h1, List.flatMap_cons, docEvents]
    simp only [List.cons_append, List.append_assoc, List.nil_append]
    rfl

end

/-- C89.  A value written as YAML is read back as itself: as `yamlBack` tells, Unsigned that fit become Integer, a blob
one slab, and doubles what the digits printed for them say.  For every value whose strings and keys have no NUL, are
UTF-8, and do not look like another scalar unless libyaml quotes them.  (`plain`: the scalars libyaml writes plain, at
least words; `errno` is not `ERANGE` before.)  Missing: those values, see the findings below. -/
theorem yaml_round_trip_partial (fo : FloatOps) (utf8 : Bytes → Bool) (plain : Nat → Bytes → Bool) (ff : UInt64 → Bytes) (cf : Conf)
    (hl : LibLaw utf8 plain) (hf : DigitsLaw ff) (v : Val) (hw : v.WF) (hv : Every (ScalarOk utf8 plain) (StrOk utf8 plain) v) :
    ∃ evs, serialize utf8 ff cf v = .ok evs ∧ deserialize fo (fun _ => false) (readerEvents plain evs) = some (.ok (yamlBack fo ff v)) := by
  refine ⟨_, yaml_written_partial utf8 ff cf hl.ascii hf v (writable_of hv), ?_⟩
  obtain ⟨y, h1, h2⟩ := read_val (fo := fo) (cf := cf) hl hf v [.docEnd cf.implicitEnd, .streamEnd] hv hw
  have := deserialize_doc (Q := (· = false)) (stale := fun _ => false) (fun _ => rfl) h2 [.streamEnd]
  rw [← this, wStream, List.flatMap_cons, List.flatMap_nil, WDoc.events]
  simp only [List.append_nil, List.cons_append, List.append_assoc, List.nil_append]
  rw [readerEvents_append, readerEvents_append, h1, docEvents]
  simp only [List.cons_append, List.append_assoc, List.nil_append]
  rfl

/-- The hypotheses hold of {"a b": [-7, "x", blob]}, with everything written plain. -/
example : LibLaw (fun _ => true) (fun _ _ => true) ∧ DigitsLaw (fun _ => [49, 46, 48]) ∧
    (Val.map [([97, 32, 98], .list [.int (-7), .str [120], .blob [[1], [2]]])]).WF ∧
    Every (ScalarOk (fun _ => true) (fun _ _ => true)) (StrOk (fun _ => true) (fun _ _ => true))
      (.map [([97, 32, 98], .list [.int (-7), .str [120], .blob [[1], [2]]])]) := by
  have hs : ∀ s : Bytes, 0 ∉ s → Guess.guess ⟨fun _ => 0, fun _ => []⟩ false s = .str s → StrOk (fun _ => true) (fun _ _ => true) s :=
    fun s h0 h => ⟨h0, rfl, .inr ((Guess.guess_string_iff _ false h0 s).1 h).2⟩
  refine ⟨⟨fun _ _ => rfl, fun _ _ _ => rfl⟩, fun _ _ _ _ => ⟨[], [49], [48], [], rfl, .inl rfl, .inr ⟨49, [], rfl, by decide, by decide⟩, by decide, .inl rfl⟩, ?_, ?_⟩
  · simp [Val.WF, WFMap, WFList, AMap.Sorted, AMap.above]
  · refine ⟨hs _ (by decide) ?_, ⟨trivial, hs _ (by decide) ?_, ⟨by decide, by decide⟩, trivial⟩, trivial⟩
    · rw [Guess.guess_of_trim _ false (by decide) rfl]; rfl
    · rw [Guess.guess_of_trim _ false (by decide) rfl]; rfl

/-- C89.  Several values, each in a document of its own: iterating over the documents of what was written visits the
values, in order. -/
theorem yaml_documents_round_trip_partial (fo : FloatOps) (utf8 : Bytes → Bool) (plain : Nat → Bytes → Bool) (ff : UInt64 → Bytes) (cf : Conf)
    (hl : LibLaw utf8 plain) (hf : DigitsLaw ff) (vs : List Val) (hne : vs ≠ [])
    (hv : ∀ v ∈ vs, Every (ScalarOk utf8 plain) (StrOk utf8 plain) v ∧ v.WF) :
    ∃ evs, serializeAll utf8 ff cf vs = .ok evs ∧
      ∃ s, LoadAll.create (source fo fun _ => false) (Parser.new (readerEvents plain evs)) = some (.ok s) ∧
        ∀ ops, LoadAll.run (source fo fun _ => false) s ops = some (LoadAll.Spec.run ⟨vs.map (yamlBack fo ff), [some 0]⟩ ops) := by
  refine ⟨_, yaml_written_all_partial utf8 ff cf hl.ascii hf vs (fun v h => writable_of (hv v h).1), ?_⟩
  obtain ⟨ys, h1, h2⟩ := read_docs (fo := fo) (ff := ff) (cf := cf) hl hf vs [.streamEnd] hv
  have hy : ys ≠ [] := by
    rintro rfl
    cases vs with
    | nil => exact hne rfl
    | cons v vs => cases h2
  rw [wStream, readerEvents_append, h1]
  exact yaml_documents fo (· = false) (fun _ => false) (fun _ => rfl) ys _ h2 hy

mutual
theorem cmp_back (fo : FloatOps) (ff : UInt64 → Bytes) {p : Nat} (hp : 64 ≤ p) : ∀ v : Val,
    Every (fun x => ∀ d, x = .flt d → doubleBack fo ff d = d) (fun _ => True) v → cmp p v (yamlBack fo ff v) = 0
  | .list xs, h => by simp only [yamlBack, cmp]; rw [if_pos (eqList_back fo ff hp xs h)]
  | .map m, h => by simp only [yamlBack, cmp]; rw [if_pos (eqMap_back fo ff hp m h)]
  | .null, _ => cmp_refl p _
  | .bool _, _ => by simp only [yamlBack]; exact cmp_refl p _
  | .int _, _ => by simp only [yamlBack]; exact cmp_refl p _
  | .uint u, _ => by
    simp only [yamlBack]
    split
    · rename_i h
      rw [int_compare_by_value hp (a := u.toNat) (b := u.toNat) rfl]
      · simp
      · simp only [intVal, Option.some.injEq]
        rw [Int64.toInt_ofNat_of_lt h]
    · exact cmp_refl p _
  | .flt d, h => by
    simp only [yamlBack, h d rfl]; exact cmp_refl p _
  | .str _, _ => by simp only [yamlBack]; exact cmp_refl p _
  | .blob s, _ => by simp only [yamlBack]; have := cmp_deepCopy p (.blob s); simpa only [deepCopy] using this
theorem eqList_back (fo : FloatOps) (ff : UInt64 → Bytes) {p : Nat} (hp : 64 ≤ p) : ∀ xs : List Val,
    EveryList (fun x => ∀ d, x = .flt d → doubleBack fo ff d = d) (fun _ => True) xs → eqList p xs (yamlBackList fo ff xs) = true
  | [], _ => by simp [yamlBackList, eqList]
  | x :: xs, h => by simp [yamlBackList, eqList, cmp_back fo ff hp x h.1, eqList_back fo ff hp xs h.2]
theorem eqMap_back (fo : FloatOps) (ff : UInt64 → Bytes) {p : Nat} (hp : 64 ≤ p) : ∀ m : List (Bytes × Val),
    EveryMap (fun x => ∀ d, x = .flt d → doubleBack fo ff d = d) (fun _ => True) m → eqMap p m (yamlBackMap fo ff m) = true
  | [], _ => by simp [yamlBackMap, eqMap]
  | (k, x) :: m, h => by simp [yamlBackMap, eqMap, cmp_back fo ff hp x h.2.1, eqMap_back fo ff hp m h.2.2]
end

/-- C89.  What is read back compares equal to the value written, if the doubles in it are read as they were. -/
theorem yaml_back_equal (fo : FloatOps) (ff : UInt64 → Bytes) (v : Val)
    (hf : Every (fun x => ∀ d, x = .flt d → doubleBack fo ff d = d) (fun _ => True) v) (p : Nat) (hp : 64 ≤ p) :
    veq p v (yamlBack fo ff v) = true := by simp [veq, cmp_back fo ff hp v hf]

/-! ## Findings -/

theorem word_printable {t : Bytes} (h : Word t) : Printable t := fun c hc => wordChar_printable c (h.1 c hc)

section
variable (fo : FloatOps) (utf8 : Bytes → Bool) (plain : Nat → Bytes → Bool) (ff : UInt64 → Bytes) (cf : Conf) (hl : LibLaw utf8 plain)
include hl

/-- C89, finding: a string that is a word and looks like another scalar ("null", "true", "12", "1.5", "0x1F", ".inf")
is written without quotes and is not read back as a string. -/
theorem string_type_false (s : Bytes) (hw : Word s) (hs : Guess.LooksScalar s) :
    ∃ evs v, serialize utf8 ff cf (.str s) = .ok evs ∧ deserialize fo (fun _ => false) (readerEvents plain evs) = some (.ok v) ∧ ∀ u, v ≠ .str u := by
  have h0 := word_noNul hw
  have hu : utf8 (s.takeWhile (· ≠ 0)) = true := by rw [Guess.takeWhile_noNul h0]; exact hl.ascii s (word_printable hw)
  have he : serialize utf8 ff cf (.str s) = .ok (wStream [⟨cf.implicitBegin, cf.implicitEnd, untagged s .any⟩]) := by
    unfold serialize
    rw [Em.init, emits_begin]
    have h1 : emit utf8 ff cf ⟨[.node], true, false, [.streamStart] ++ [.docStart cf.implicitBegin]⟩ (.str s) = _ := scalar_ok (c' := [.docEnd]) rfl hu
    rw [show (Event.valTree (.str s)).calls = [.str s] from rfl, emits_one h1, Out.bind_ok]
    rw [show Event.cstr s = s from Guess.takeWhile_noNul h0]
    rfl
  refine ⟨_, Guess.guess fo false s, he, ?_, ?_⟩
  · exact deserialize_doc (Q := (· = false)) (stale := fun _ => false) (fun _ => rfl) (means_word (k := 2) hl hw rfl) [.streamEnd]
  · intro u h
    exact ((Guess.guess_string_iff fo false h0 u).1 h).2 ⟨s, surrounds_self s, hs⟩

/-- C89, finding: two keys become one and its first value is lost: {"01": 1, "1": 2} is read back as {"1": 2}. -/
theorem keys_merge_false : ∃ evs, serialize utf8 ff cf (.map [([48, 49], .int 1), ([49], .int 2)]) = .ok evs ∧
    deserialize fo (fun _ => false) (readerEvents plain evs) = some (.ok (.map [([49], .int 2)])) := by
  have hw1 : Word [48, 49] := by unfold Word; decide
  have hw2 : Word [49] := by unfold Word; decide
  have hw3 : Word [50] := by unfold Word; decide
  have g1 : Guess.guess fo false [48, 49] = .int 1 := by rw [Guess.guess_of_trim fo false (by decide) rfl]; rfl
  have g2 : Guess.guess fo false [49] = .int 1 := by rw [Guess.guess_of_trim fo false (by decide) rfl]; rfl
  have g3 : Guess.guess fo false [50] = .int 2 := by rw [Guess.guess_of_trim fo false (by decide) rfl]; rfl
  have t1 : ∀ i : Int64, i = 1 → (if i.toInt < 0 then 45 :: natDec i.toInt.natAbs else natDec i.toInt.natAbs) = [49] := by
    rintro _ rfl; rw [if_neg (by decide)]; exact natDec_lt (n := 1) (by omega)
  have d1 : decimal (1 : Int64).toInt = [49] := natDec_lt (n := 1) (by omega)
  have d2 : decimal (2 : Int64).toInt = [50] := natDec_lt (n := 2) (by omega)
  have k1 : KeyText fo (.int 1) [49] := by have := KeyText.int (fo := fo) (i := 1); rwa [t1 1 rfl] at this
  refine ⟨wStream [⟨cf.implicitBegin, cf.implicitEnd, .map cf.mapStyle
    [(untagged [48, 49] .any, untagged [49] .plain), (untagged [49] .any, untagged [50] .plain)]⟩], ?_, ?_⟩
  · unfold serialize
    rw [Em.init, emits_begin]
    have u1 := hl.ascii _ (word_printable hw1)
    have u2 := hl.ascii _ (word_printable hw2)
    have u3 := hl.ascii _ (word_printable hw3)
    simp only [Event.valTree, Event.valPairs, Event.Tree.calls, Event.callsPairs, Event.Atom.call, List.cons_append, List.nil_append, List.append_nil,
      emits, emit, show intText (1 : Int64).toInt = [49] from d1, show intText (2 : Int64).toInt = [50] from d2]
    simp only [put, putScalar, inside, if_true, Out.bind_ok, Bool.false_eq_true, if_false, give, accept, afterNode, Option.map, Event.cstr,
      Guess.takeWhile_noNul (show 0 ∉ ([48, 49] : Bytes) by decide), Guess.takeWhile_noNul (show 0 ∉ ([49] : Bytes) by decide), u1, u2, u3]
    rfl
  · have h := deserialize_doc (fo := fo) (Q := (· = false)) (stale := fun _ => false) (fun _ => rfl)
      (t := .map [] [(YScalar none (plain 6 [48, 49]) [48, 49], YScalar none (plain 5 [49]) [49]),
        (YScalar none (plain 4 [49]) [49], YScalar none (plain 3 [50]) [50])]) (v := .map [([49], .int 2)]) (env := [])
      (.map (a := []) (.cons (means_word hl hw1 g1) k1 (means_word hl hw2 g2) (.cons (means_word hl hw2 g2) k1 (means_word hl hw3 g3) .nil))
        (by simp [AMap.Sorted, AMap.above]) (fun k => by
          simp only [lastOf, AMap.get, List.reverse_cons, List.reverse_nil, List.nil_append, List.singleton_append, List.find?]
          by_cases hk : [49] = k
          · simp [hk]
          · have hb : ([49] == k) = false := beq_eq_false_iff_ne.2 hk
            simp [hk, hb])) [.streamEnd]
    exact h

/-- C89, finding: a key "null" becomes the empty key. -/
theorem key_null_false : ∃ evs, serialize utf8 ff cf (.map [([110, 117, 108, 108], .null)]) = .ok evs ∧
    deserialize fo (fun _ => false) (readerEvents plain evs) = some (.ok (.map [([], .null)])) := by
  have hw : Word [110, 117, 108, 108] := by unfold Word; decide
  have g : Guess.guess fo false [110, 117, 108, 108] = .null := by rw [Guess.guess_of_trim fo false (by decide) rfl]; rfl
  refine ⟨wStream [⟨cf.implicitBegin, cf.implicitEnd, .map cf.mapStyle
    [(untagged [110, 117, 108, 108] .any, untagged [110, 117, 108, 108] .plain)]⟩], ?_, ?_⟩
  · unfold serialize
    rw [Em.init, emits_begin]
    have u := hl.ascii _ (word_printable hw)
    simp only [Event.valTree, Event.valPairs, Event.Tree.calls, Event.callsPairs, Event.Atom.call, List.cons_append, List.nil_append, List.append_nil,
      emits, emit, tNull]
    simp only [put, putScalar, inside, if_true, Out.bind_ok, Bool.false_eq_true, if_false, give, accept, afterNode, Option.map, Event.cstr,
      Guess.takeWhile_noNul (show 0 ∉ ([110, 117, 108, 108] : Bytes) by decide), u]
    rfl
  · have h := deserialize_doc (fo := fo) (Q := (· = false)) (stale := fun _ => false) (fun _ => rfl)
      (t := .map [] [(YScalar none (plain 4 [110, 117, 108, 108]) [110, 117, 108, 108], YScalar none (plain 3 [110, 117, 108, 108]) [110, 117, 108, 108])])
      (v := .map [([], .null)]) (env := [])
      (.map (a := []) (.cons (means_word hl hw g) .null (means_word hl hw g) .nil) (by simp [AMap.Sorted, AMap.above]) (single_map _ _)) [.streamEnd]
    exact h

end

/-- C89, finding: a string ends at its first NUL: what is written is the same. -/
theorem nul_false (utf8 : Bytes → Bool) (ff : UInt64 → Bytes) (cf : Conf) (s : Bytes) (r : Bytes) (hs : 0 ∉ s) :
    serialize utf8 ff cf (.str (s ++ 0 :: r)) = serialize utf8 ff cf (.str s) := by
  have e : (s ++ 0 :: r).takeWhile (· ≠ 0) = s.takeWhile (· ≠ 0) := by
    rw [Guess.takeWhile_noNul hs]
    induction s with
    | nil => rfl
    | cons c s ih =>
      simp only [List.mem_cons, not_or] at hs
      have : decide (c ≠ 0) = true := by simpa using fun e => hs.1 e.symm
      simp only [List.cons_append, List.takeWhile, this]
      rw [ih hs.2]
  have e' : Event.cstr (s ++ 0 :: r) = Event.cstr s := e
  simp only [serialize, Event.valTree, Event.Tree.calls, Event.Atom.call, emits, emit, e']

end Verif.Yaml
