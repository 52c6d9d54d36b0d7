import Verif.Defaults.Props
import Verif.Defaults.Examples
/-!
# Defaults for elements of lists
-/

namespace Verif.Defaults
open Verif Schema

/-- Specification: why nothing may be filled in at `p`, which goes on with `e` below some place `q`: there is a value at `q` that is neither null nor the kind of
container that `e` asks for; the document had a null there; the schema has a default for that place or one above it; or `q` is an element of a list that has a default further
on, and may have been made null to get there. -/
def Hidden (get : Bytes → Out Val) (s doc doc' : Val) (p : VPath) : Prop :=
  ∃ q e t, p = q ++ e :: t ∧
    ((∃ v, getPath? doc' q = some v ∧ v.ty ≠ e.containerTy ∧ v ≠ .null) ∨ getPath? doc q = some .null ∨ (∃ q' d', q' <+: q ∧ DefaultAt get s q' d') ∨
     ∃ q0 i j r d', q = q0 ++ [.index j] ∧ j < i ∧ DefaultAt get s (q0 ++ .index i :: r) d')

/-- Specification: no list of schemas for the elements of a list is longer than lists of values can be. -/
def ShortItems (get : Bytes → Out Val) (s : Val) : Prop :=
  ∀ m ss, Reaches get s (.map m) → AMap.get m kItems = some (.list ss) → ss.length < 2 ^ 32

/-- `Hidden` for the part of the path below `P`. -/
def HiddenAt (get : Bytes → Out Val) (s doc fin : Val) (P r : VPath) : Prop :=
  ∃ q e t, r = q ++ e :: t ∧
    ((∃ v, getPath? fin (P ++ q) = some v ∧ v.ty ≠ e.containerTy ∧ v ≠ .null) ∨ getPath? doc (P ++ q) = some .null ∨ (∃ q' d', q' <+: q ∧ DefaultAt get s q' d') ∨
     ∃ q0 i j r d', q = q0 ++ [.index j] ∧ j < i ∧ DefaultAt get s (q0 ++ .index i :: r) d')

/-- A null in the course of a run. -/
theorem null_from {get : Bytes → Out Val} {s doc a : Val} {P q : VPath} (st : Steps (Below get s P) doc a) (hn : getPath? a (P ++ q) = some .null) :
    getPath? doc (P ++ q) = some .null ∨ (∃ q' d', q' <+: q ∧ DefaultAt get s q' d') ∨
      ∃ q0 i j r d', q = q0 ++ [.index j] ∧ j < i ∧ DefaultAt get s (q0 ++ .index i :: r) d' := by
  cases st.origin _ _ hn with
  | @old v h1 h2 => exact .inl (by rw [h1, ty_null (h2.1.symm.trans rfl)])
  | @inside p r d w h1 h2 _ _ =>
    obtain ⟨r', rfl, hd⟩ := h1
    rw [List.append_assoc] at h2
    exact .inr (.inl ⟨r', d, ⟨r, (List.append_cancel_left h2).symm⟩, hd⟩)
  | @way e _ _ _ h => cases e <;> cases h
  | @padding pre r d i j h1 h2 h3 _ =>
    obtain ⟨r', h4, hd⟩ := h1
    rcases List.eq_nil_or_concat q with rfl | ⟨q0, x, rfl⟩
    · rw [List.append_nil] at h2
      rw [h2, List.append_assoc] at h4
      have h5 := List.append_cancel_left h4
      simp only [List.singleton_append, List.cons.injEq, PathElem.index.injEq] at h5
      rw [h5.1] at h3
      exact absurd h3 (by simp)
    · rw [List.concat_eq_append, ← List.append_assoc] at h2
      obtain ⟨h5, h6⟩ := List.append_inj' h2 rfl
      cases h6
      rw [← h5, List.append_assoc] at h4
      have h7 := List.append_cancel_left h4
      exact .inr (.inr ⟨q0, i, j, r, d, by simp, h3, h7 ▸ hd⟩)

/-- A run of a part of the schema at the same place, started later. -/
theorem hidden_same {get : Bytes → Out Val} {s t doc a fin : Val} {P r : VPath} (hd : ∀ p d, DefaultAt get t p d → DefaultAt get s p d)
    (st : Steps (Below get s P) doc a) (h : HiddenAt get t a fin P r) : HiddenAt get s doc fin P r := by
  obtain ⟨q, e, x, h1, h3⟩ := h
  refine ⟨q, e, x, h1, ?_⟩
  rcases h3 with h3 | h3 | ⟨q', d', h3, h4⟩ | ⟨q0, i, j, r, d', h3, h4, h5⟩
  · exact .inl h3
  · exact .inr (null_from st h3)
  · exact .inr (.inr (.inl ⟨q', d', h3, hd _ _ h4⟩))
  · exact .inr (.inr (.inr ⟨q0, i, j, r, d', h3, h4, hd _ _ h5⟩))

/-- The same one element below. -/
theorem hidden_below {get : Bytes → Out Val} {s t doc a fin : Val} {P r : VPath} {k : PathElem}
    (hd : ∀ p d, DefaultAt get t p d → DefaultAt get s (k :: p) d) (st : Steps (Below get s P) doc a)
    (h : HiddenAt get t a fin (P ++ [k]) r) : HiddenAt get s doc fin P (k :: r) := by
  obtain ⟨q, e, x, h1, h3⟩ := h
  refine ⟨k :: q, e, x, by rw [h1]; rfl, ?_⟩
  simp only [List.append_assoc, List.singleton_append] at h3
  rcases h3 with h3 | h3 | ⟨q', d', h3, h4⟩ | ⟨q0, i, j, r, d', h3, h4, h5⟩
  · exact .inl h3
  · exact .inr (null_from st h3)
  · exact .inr (.inr (.inl ⟨k :: q', d', List.cons_prefix_cons.2 ⟨rfl, h3⟩, hd _ _ h4⟩))
  · exact .inr (.inr (.inr ⟨k :: q0, i, j, r, d', by rw [h3]; rfl, h4, hd _ _ h5⟩))

theorem mem_items {ss : List Val} {s : Val} {i : Nat} (hl : ss.length < 2 ^ 32) (h : ss[i]? = some s) : (s, UInt32.ofNat i) ∈ itemsOf (.list ss) := by
  simp only [itemsOf, Nat.mod_eq_of_lt hl, List.take_length, List.mem_map]
  exact ⟨(s, i), List.mem_zipIdx_iff_getElem?.2 h, rfl⟩

theorem fillP_fills_all (get : Bytes → Out Val) (n : Nat) : ∀ (s doc doc' : Val) (P r : VPath) (d : Val), Open doc P →
    fillP get n s doc P = some (doc', .ok ()) → DefaultAt get s r d → (∀ d', DefaultAt get s r d' → d' ≠ .null) → ShortItems get s →
    ∀ fin, Keeps doc' fin → Present fin (P ++ r) ∨ HiddenAt get s doc fin P r := by
  induction n with
  | zero => intro s doc doc' P r d _ h; cases h
  | succ n ih =>
    intro s doc doc' P r d ho h hd hn hsh fin hfin
    obtain ⟨m, rfl⟩ : ∃ m, s = .map m := by cases hd <;> exact ⟨_, rfl⟩
    obtain ⟨doc1, s1, o1, s1', href, hrest⟩ := phases ho h
    have hk1 : Keeps doc1 fin := s1'.keeps.trans hfin
    have hide : ∀ d', AMap.get m kDefault = some d' → r ≠ [] → HiddenAt get (.map m) doc fin P r := fun d' hd' hne => by
      cases r with
      | nil => exact absurd rfl hne
      | cons e t => exact ⟨[], e, t, rfl, .inr (.inr (.inl ⟨[], d', List.nil_prefix, .own hd'⟩))⟩
    -- a value of another kind is in the way
    have stuck : ∀ (b : Val) (e : PathElem) (t : VPath), r = e :: t → Steps (Below get (.map m) P) doc b → Keeps b fin →
        missingOr e.containerTy (getPath? b P) ≠ true → HiddenAt get (.map m) doc fin P r := fun b e t hr st hk ht => by
      cases hv : getPath? b P with
      | none => rw [hv] at ht; exact absurd rfl ht
      | some v =>
        rw [hv] at ht
        simp only [missingOr, decide_eq_true_eq] at ht
        refine ⟨[], e, t, hr, ?_⟩
        by_cases hv0 : v = .null
        · subst hv0
          exact .inr (null_from st (by simpa using hv))
        · obtain ⟨v', h3, h4⟩ := hk.present hv hv0
          exact .inl ⟨v', by simpa using h3, by rw [h4.1]; simpa using ht, h4.ne_null hv0⟩
    -- the schema of an element
    have element : ∀ (v t : Val) (i : UInt32) (r' : VPath), r = .index i :: r' → AMap.get m kItems = some v → (t, i) ∈ itemsOf v →
        (∀ p d, DefaultAt get t p d → DefaultAt get (.map m) (.index i :: p) d) → DefaultAt get t r' d → ShortItems get t →
        Present fin (P ++ r) ∨ HiddenAt get (.map m) doc fin P r := fun v t i r' hr hv hx hup hdt ht => by
      subst hr
      rcases hrest with ⟨d', _, h2, _⟩ | ⟨hown, doc2, doc3, s2, s3, s4, _, h2, _⟩
      · exact .inr (hide d' h2 (by simp))
      by_cases hm : missingOr .list (getPath? doc2 P) = true
      · obtain ⟨a, b, t1, t2, t3, t4⟩ := h2 hm v (t, i) hv hx
        rcases ih t a b (P ++ [.index i]) r' d t2 t3 hdt (fun d' h' => hn d' (hup _ _ h')) ht fin (t4.keeps.trans (s4.keeps.trans hfin)) with h | h
        · left; simpa using h
        · exact .inr (hidden_below hup ((s1.trans s2).trans t1) h)
      · exact .inr (stuck doc2 (.index i) r' rfl (s1.trans s2) (s3.keeps.trans (s4.keeps.trans hfin)) hm)
    cases hd with
    | own hd =>
      left
      rw [List.append_nil]
      rcases hrest with ⟨d', _, h2, h3⟩ | ⟨h2, _⟩
      · rw [hd] at h2
        cases h2
        have := setPath_below h3 []
        rw [List.append_nil] at this
        exact present_keeps hfin ⟨d, this, hn d (.own hd)⟩
      · refine present_keeps hk1 ?_
        rcases ownDefault_none h2 with h2 | h2
        · cases hv : getPath? doc1 P with
          | none => rw [hv] at h2; cases h2
          | some v => refine ⟨v, hv, ?_⟩; rintro rfl; rw [hv] at h2; cases h2
        · rw [hd] at h2; cases h2
    | ref hu hs hd =>
      rcases ih _ _ _ P r d ho (href _ _ hu hs) hd (fun d' h' => hn d' (.ref hu hs h')) (fun m ss h => hsh m ss (.ref hu hs h)) fin hk1 with h | h
      · exact .inl h
      · exact .inr (hidden_same (fun _ _ => .ref hu hs) .refl h)
    | @property _ ps k t r d hp hx hd =>
      rcases hrest with ⟨d', _, h2, _⟩ | ⟨hown, doc2, doc3, s2, s3, s4, h2, _, _⟩
      · exact .inr (hide d' h2 (by simp))
      by_cases ht : missingOr .map (getPath? doc1 P) = true
      · obtain ⟨a, b, t1, t2, t3, t4⟩ := h2 ht ps (k, t) hp hx
        have hkb : Keeps b fin := t4.keeps.trans (s3.keeps.trans (s4.keeps.trans hfin))
        rcases ih t a b (P ++ [.key k]) r d t2 t3 hd (fun d' h' => hn d' (.property hp hx h')) (fun m ss h => hsh m ss (.property hp hx h)) fin hkb with h | h
        · left; simpa using h
        · exact .inr (hidden_below (fun _ _ hd => .property hp hx hd) (s1.trans t1) h)
      · exact .inr (stuck doc1 (.key k) r rfl s1 hk1 ht)
    | @item _ ss t r d i hi hx hlt hd =>
      exact element _ t _ r rfl hi (mem_items (hsh m ss .self hi) hx) (fun _ _ h => .item hi hx hlt h) hd
        (fun m' ss' h => hsh m' ss' (.item hi (List.mem_of_getElem? hx) h))
    | @items _ t r d hi hty hd =>
      refine element _ t 0 r rfl hi ?_ (fun _ _ h => .items hi hty h) hd (fun m' ss' h => hsh m' ss' (.items hi h))
      cases t <;> first | exact absurd rfl hty | exact List.mem_singleton.2 rfl
    | @member _ k ss t r d hk hss ht hd =>
      have hmem : t ∈ membersOf m kAllOf ++ membersOf m kOneOf ++ membersOf m kAnyOf := by
        have : t ∈ membersOf m k := by simp only [membersOf, hss]; exact ht
        simp only [combining, List.mem_cons, List.not_mem_nil, or_false] at hk
        simp only [List.mem_append]
        rcases hk with rfl | rfl | rfl
        · exact .inl (.inl this)
        · exact .inl (.inr this)
        · exact .inr this
      rcases hrest with ⟨d', _, h2, h3⟩ | ⟨hown, doc2, doc3, s2, s3, s4, _, _, h2⟩
      · by_cases hne : r = []
        · subst hne
          left
          have := setPath_below h3 []
          rw [List.append_nil] at this ⊢
          exact present_keeps hfin ⟨d', this, hn d' (.own h2)⟩
        · exact .inr (hide d' h2 hne)
      · obtain ⟨a, b, t1, t2, t3, t4⟩ := h2 t hmem
        rcases ih t a b P r d t2 t3 hd (fun d' h' => hn d' (member_combining hmem h')) (fun m ss' h => hsh m ss' (.member hk hss ht h)) fin
          (t4.keeps.trans hfin) with h | h
        · exact .inl h
        · exact .inr (hidden_same (fun _ _ => member_combining hmem) (s1.trans ((s2.trans s3).trans t1)) h)

/-- C68.  After a call that ended normally, every place that the schema gives defaults other than null for, elements of lists included, has a value other than null, unless
something above it stands in the way. -/
theorem defaults_filled_all {p : Nat} {builtin : Bytes × Val} {base : List Loader.Layer} {n : Nat} {schema doc doc' s : Val}
    (hp : Proper builtin base schema doc) (hs : Used p builtin base schema doc s)
    (h : addSchemaDefaults p builtin base n schema doc = some (doc', .ok ())) {q : VPath} {d : Val}
    (hd : DefaultAt (known p builtin base s) (absolute s) q d)
    (hn : ∀ d', DefaultAt (known p builtin base s) (absolute s) q d' → d' ≠ .null) (hi : ShortItems (known p builtin base s) (absolute s)) :
    Present doc' q ∨ Hidden (known p builtin base s) (absolute s) doc doc' q := by
  rcases run_cases hp h with ⟨h1, _, _⟩ | ⟨t, h1, h2, _, _⟩
  · exact absurd hs (h1 s)
  · cases used_unique hs h1
    exact fillP_fills_all _ n _ doc doc' [] q d (open_root doc) h2 hd hn hi doc' (Keeps.refl doc')

/-! ## A case -/

/-- Defaults 5 and 7 for the first two elements. -/
def itemSchema : Val := .map [(kItems, .list [.map [(kDefault, .uint 5)], .map [(kDefault, .uint 7)]])]

theorem itemSchema_get {k : Bytes} {v : Val} (h : AMap.get [(kItems, .list [.map [(kDefault, .uint 5)], .map [(kDefault, .uint 7)]])] k = some v) :
    k = kItems ∧ v = .list [.map [(kDefault, .uint 5)], .map [(kDefault, .uint 7)]] := by
  simp only [AMap.get] at h
  split at h
  · rename_i e
    cases h
    exact ⟨by simpa using e.symm, rfl⟩
  · cases h

theorem itemLeaf_get {k : Bytes} {n : UInt64} {v : Val} (h : AMap.get [(kDefault, Val.uint n)] k = some v) : k = kDefault ∧ v = .uint n := by
  simp only [AMap.get] at h
  split at h
  · rename_i e
    cases h
    exact ⟨by simpa using e.symm, rfl⟩
  · cases h

theorem itemLeaf_default {g : Bytes → Out Val} {n : UInt64} {q : VPath} {d : Val} (h : DefaultAt g (.map [(kDefault, .uint n)]) q d) : d = .uint n := by
  cases h with
  | own h => exact (itemLeaf_get h).2
  | ref h _ _ => cases (itemLeaf_get h).2
  | property h _ _ => cases (itemLeaf_get h).2
  | item h _ _ _ => cases (itemLeaf_get h).2
  | items h _ _ => exact absurd (itemLeaf_get h).1 (by decide)
  | member _ h _ _ => cases (itemLeaf_get h).2

theorem itemLeaf_short {g : Bytes → Out Val} {n : UInt64} : ShortItems g (.map [(kDefault, .uint n)]) := by
  intro m ss h hi
  cases h with
  | self => cases (itemLeaf_get hi).2
  | ref h _ _ => cases (itemLeaf_get h).2
  | property h _ _ => cases (itemLeaf_get h).2
  | item h _ _ => cases (itemLeaf_get h).2
  | items h _ => exact absurd (itemLeaf_get h).1 (by decide)
  | member _ h _ _ => cases (itemLeaf_get h).2

/-- `[true]` becomes `[true, 7]`, and all that `defaults_filled_all` asks for holds of the call. -/
example : addSchemaDefaults 64 exBuiltin [] 5 itemSchema (.list [.bool true]) = some (.list [.bool true, .uint 7], .ok ()) ∧
    Proper exBuiltin [] itemSchema (.list [.bool true]) ∧ Used 64 exBuiltin [] itemSchema (.list [.bool true]) itemSchema ∧
    absolute itemSchema = itemSchema ∧ ∀ g, DefaultAt g itemSchema [.index 1] (.uint 7) ∧ (∀ d', DefaultAt g itemSchema [.index 1] d' → d' ≠ .null) := by
  refine ⟨by rfl, exProper ?_ ?_, rfl, rfl, fun g => ⟨.item (i := 1) rfl rfl (by decide) (.own rfl), fun d' h => ?_⟩⟩
  · simp [itemSchema, Val.WF, WFMap, WFList, AMap.Sorted, AMap.above]
  · simp [Val.WF, WFList]
  · generalize hq : ([.index 1] : VPath) = q at h
    cases h with
    | own h => cases hq
    | ref h _ _ => cases (itemSchema_get h).2
    | property h _ _ => cases hq
    | item h hx _ h' =>
      cases (itemSchema_get h).2
      have := List.mem_of_getElem? hx
      simp only [List.mem_cons, List.not_mem_nil, or_false] at this
      rcases this with rfl | rfl <;> rw [itemLeaf_default h'] <;> exact nofun
    | items h hty _ => cases (itemSchema_get h).2; exact absurd rfl hty
    | member hk h _ _ =>
      have := (itemSchema_get h).1
      subst this
      exact absurd hk (by decide)

example (g : Bytes → Out Val) : ShortItems g itemSchema := by
  intro m ss h hi
  have hss : ∀ {s : Val}, s ∈ [Val.map [(kDefault, .uint 5)], .map [(kDefault, .uint 7)]] → Reaches g s (.map m) → ss.length < 2 ^ 32 := by
    intro s hs hr
    simp only [List.mem_cons, List.not_mem_nil, or_false] at hs
    rcases hs with rfl | rfl <;> exact itemLeaf_short m ss hr hi
  cases h with
  | self => cases (itemSchema_get hi).2; decide
  | ref h _ _ => cases (itemSchema_get h).2
  | property h _ _ => cases (itemSchema_get h).2
  | item h hs hr => cases (itemSchema_get h).2; exact hss hs hr
  | items h hr => cases (itemSchema_get h).2; cases hr
  | member hk h _ _ =>
    have := (itemSchema_get h).1
    subst this
    exact absurd hk (by decide)

end Verif.Defaults
