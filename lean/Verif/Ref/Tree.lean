import Verif.Ref.TreeSpec
import Verif.Ref.Ops
/-!
# Values as trees: what changes of the memory do to them
-/

namespace Verif.Ref
open Verif

def Content.slots : Content → List Slot
  | .list xs => xs
  | .map m => m.map (·.2)
  | _ => []

/-- Storage `a` contains `b`, or is `b`. -/
inductive Inside (c : Nat → Content) : Nat → Nat → Prop
  | refl (a) : Inside c a a
  | head {a b s x} : x ∈ (c a).slots → x.sto = some b → Inside c b s → Inside c a s

theorem slots_el (sl : Nat → Slot) (c : Cell) : (contentOf sl c).slots = c.elems.map sl := by
  cases c with
  | map m => simp [contentOf, Content.slots, Cell.elems, List.map_map]
  | _ => simp [contentOf, Content.slots, Cell.elems]

/-! ## Lists and maps of values -/

theorem allIs_iff {c : Nat → Content} : ∀ {vs : List Val} {xs : List Slot}, AllIs c vs xs ↔
    vs.length = xs.length ∧ ∀ (i : Nat) v x, vs[i]? = some v → xs[i]? = some x → SlotIs c v x
  | [], xs => by
    rw [AllIs]
    constructor
    · rintro rfl; exact ⟨rfl, fun i v x h => by simp at h⟩
    · rintro ⟨h, _⟩; exact List.length_eq_zero_iff.1 h.symm
  | v :: vs, xs => by
    rw [AllIs]
    constructor
    · rintro ⟨x, r, rfl, h1, h2⟩
      obtain ⟨h3, h4⟩ := allIs_iff.1 h2
      refine ⟨by simp [h3], fun i => ?_⟩
      cases i with
      | zero => intro v' x' h5 h6; simp at h5 h6; rw [← h5, ← h6]; exact h1
      | succ i => intro v' x' h5 h6; exact h4 i v' x' (by simpa using h5) (by simpa using h6)
    · rintro ⟨h1, h2⟩
      cases xs with
      | nil => cases h1
      | cons x r =>
        exact ⟨x, r, rfl, h2 0 v x rfl rfl, allIs_iff.2 ⟨by simpa using h1, fun i v x h3 h4 => h2 (i + 1) v x (by simpa using h3) (by simpa using h4)⟩⟩

theorem allIs_append {c : Nat → Content} {vs ws : List Val} {xs ys : List Slot} (h : AllIs c vs xs) (h2 : AllIs c ws ys) : AllIs c (vs ++ ws) (xs ++ ys) := by
  induction vs generalizing xs with
  | nil => rw [AllIs] at h; rw [h]; exact h2
  | cons v vs ih =>
    rw [AllIs] at h
    obtain ⟨x, r, rfl, h3, h4⟩ := h
    exact ⟨x, r ++ ys, rfl, h3, ih h4⟩

theorem allIs_nulls (c : Nat → Content) (n : Nat) : AllIs c (List.replicate n .null) (List.replicate n .null) := by
  induction n with
  | zero => rfl
  | succ n ih => exact ⟨.null, _, List.replicate_succ, rfl, ih⟩

theorem allIs_take {c : Nat → Content} {vs : List Val} {xs : List Slot} (h : AllIs c vs xs) (n : Nat) : AllIs c (vs.take n) (xs.take n) := by
  induction n generalizing vs xs with
  | zero => simp [AllIs]
  | succ n ih =>
    cases vs with
    | nil => rw [AllIs] at h; rw [h]; simp [AllIs]
    | cons v vs =>
      rw [AllIs] at h
      obtain ⟨x, r, rfl, h3, h4⟩ := h
      exact ⟨x, _, rfl, h3, ih h4⟩

theorem allIs_set {c : Nat → Content} {vs : List Val} {xs : List Slot} (h : AllIs c vs xs) (i : Nat) {w : Val} {x : Slot} (hw : SlotIs c w x) :
    AllIs c (vs.set i w) (xs.set i x) := by
  rw [allIs_iff] at *
  refine ⟨by simp [h.1], fun j v y h1 h2 => ?_⟩
  by_cases e : i = j
  · subst e
    rw [List.getElem?_set] at h1 h2
    simp only [if_pos] at h1 h2
    split at h1 <;> simp_all
  · rw [List.getElem?_set_ne e] at h1 h2
    exact h.2 j v y h1 h2

theorem allIs_get {c : Nat → Content} {vs : List Val} {xs : List Slot} (h : AllIs c vs xs) (i : Nat) :
    (vs[i]? = none ∧ xs[i]? = none) ∨ ∃ v x, vs[i]? = some v ∧ xs[i]? = some x ∧ SlotIs c v x := by
  rw [allIs_iff] at h
  by_cases hl : i < vs.length
  · exact .inr ⟨vs[i], xs[i]'(h.1 ▸ hl), List.getElem?_eq_getElem _, List.getElem?_eq_getElem _, h.2 i _ _ (List.getElem?_eq_getElem _) (List.getElem?_eq_getElem _)⟩
  · exact .inl ⟨List.getElem?_eq_none (by omega), List.getElem?_eq_none (by omega)⟩

theorem mapIs_get {c : Nat → Content} {m : List (Bytes × Val)} {ms : List (Bytes × Slot)} (h : MapIs c m ms) (k : Bytes) :
    (AMap.get m k = none ∧ AMap.get ms k = none) ∨ ∃ v x, AMap.get m k = some v ∧ AMap.get ms k = some x ∧ SlotIs c v x := by
  induction m generalizing ms with
  | nil => rw [MapIs] at h; rw [h]; exact .inl ⟨rfl, rfl⟩
  | cons p m ih =>
    rw [MapIs] at h
    obtain ⟨x, r, rfl, h1, h2⟩ := h
    obtain ⟨k', v⟩ := p
    rw [AMap.get, AMap.get]
    by_cases e : k' = k
    · simp only [if_pos e]; exact .inr ⟨v, x, rfl, rfl, h1⟩
    · simp only [if_neg e]; exact ih h2

theorem mapIs_set {c : Nat → Content} {m : List (Bytes × Val)} {ms : List (Bytes × Slot)} (h : MapIs c m ms) (k : Bytes) {w : Val} {x : Slot} (hw : SlotIs c w x) :
    MapIs c (AMap.set m k w) (AMap.set ms k x) := by
  induction m generalizing ms with
  | nil => rw [MapIs] at h; rw [h]; exact ⟨x, [], rfl, hw, rfl⟩
  | cons p m ih =>
    obtain ⟨k', v⟩ := p
    rw [MapIs] at h
    obtain ⟨y, r, rfl, h1, h2⟩ := h
    rw [AMap.set, AMap.set]
    by_cases e : k' = k
    · simp only [if_pos e]; exact ⟨x, r, rfl, hw, h2⟩
    · simp only [if_neg e]
      by_cases h3 : keyLt k k' = true
      · simp only [if_pos h3]; exact ⟨x, _, rfl, hw, y, r, rfl, h1, h2⟩
      · simp only [if_neg h3]; exact ⟨y, _, rfl, h1, ih h2⟩

theorem mapIs_erase {c : Nat → Content} {m : List (Bytes × Val)} {ms : List (Bytes × Slot)} (h : MapIs c m ms) (k : Bytes) :
    MapIs c (AMap.erase m k) (AMap.erase ms k) := by
  induction m generalizing ms with
  | nil => rw [MapIs] at h; rw [h]; rfl
  | cons p m ih =>
    obtain ⟨k', v⟩ := p
    rw [MapIs] at h
    obtain ⟨y, r, rfl, h1, h2⟩ := h
    rw [AMap.erase, AMap.erase]
    by_cases e : k' = k
    · simp only [if_pos e]; exact h2
    · simp only [if_neg e]; exact ⟨y, _, rfl, h1, ih h2⟩

theorem get_map_snd {α β : Type} (f : α → β) (m : List (Bytes × α)) (k : Bytes) : AMap.get (m.map fun p => (p.1, f p.2)) k = (AMap.get m k).map f := by
  induction m with
  | nil => rfl
  | cons p m ih =>
    obtain ⟨k', v⟩ := p
    rw [List.map_cons, AMap.get, AMap.get]
    by_cases e : k' = k
    · simp [if_pos e]
    · simp only [if_neg e]; exact ih

theorem set_map_snd {α β : Type} (f : α → β) (m : List (Bytes × α)) (k : Bytes) (x : α) :
    (AMap.set m k x).map (fun p => (p.1, f p.2)) = AMap.set (m.map fun p => (p.1, f p.2)) k (f x) := by
  induction m with
  | nil => rfl
  | cons p m ih =>
    obtain ⟨k', v⟩ := p
    rw [List.map_cons, AMap.set, AMap.set]
    by_cases e : k' = k
    · simp [if_pos e]
    · simp only [if_neg e]
      by_cases h3 : keyLt k k' = true
      · simp [if_pos h3]
      · simp only [if_neg h3, List.map_cons, ih]

theorem erase_map_snd {α β : Type} (f : α → β) (m : List (Bytes × α)) (k : Bytes) :
    (AMap.erase m k).map (fun p => (p.1, f p.2)) = AMap.erase (m.map fun p => (p.1, f p.2)) k := by
  induction m with
  | nil => rfl
  | cons p m ih =>
    obtain ⟨k', v⟩ := p
    rw [List.map_cons, AMap.erase, AMap.erase]
    by_cases e : k' = k
    · simp [if_pos e]
    · simp only [if_neg e, List.map_cons, ih]

theorem map_update {β : Type} {f g : Nat → β} {es : List Nat} {c i : Nat} {b : β} (hnd : es.Nodup) (hi : es[i]? = some c)
    (hg : ∀ x ∈ es, g x = if x = c then b else f x) : es.map g = (es.map f).set i b := by
  apply List.ext_getElem?
  intro j
  rw [List.getElem?_map, List.getElem?_set, List.getElem?_map]
  cases hj : es[j]? with
  | none =>
    have : es.length ≤ j := List.getElem?_eq_none_iff.1 hj
    simp [show ¬ j < es.length by omega]
    rintro rfl; exact this
  | some x =>
    obtain ⟨hlt, hx⟩ := List.getElem?_eq_some_iff.1 hj
    obtain ⟨hlt2, hx2⟩ := List.getElem?_eq_some_iff.1 hi
    simp only [Option.map_some, List.length_map]
    rw [hg x (List.mem_of_getElem? hj)]
    by_cases e : i = j
    · subst e
      rw [hx] at hx2
      simp [hx2, hlt]
    · have : x ≠ c := by
        rintro rfl
        exact e ((List.getElem_inj hnd).1 (hx2.trans hx.symm))
      simp [e, this]

theorem map_update_key {β : Type} {f g : Nat → β} {m : List (Bytes × Nat)} {k : Bytes} {c : Nat} {b : β} (hnd : (m.map (·.2)).Nodup) (hk : AMap.get m k = some c)
    (hs : AMap.Sorted m) (hg : ∀ x ∈ m.map (·.2), g x = if x = c then b else f x) :
    m.map (fun p => (p.1, g p.2)) = AMap.set (m.map fun p => (p.1, f p.2)) k b := by
  induction m with
  | nil => cases hk
  | cons p m ih =>
    obtain ⟨k', v⟩ := p
    rw [List.map_cons, List.nodup_cons] at hnd
    rw [AMap.get] at hk
    rw [List.map_cons, List.map_cons, AMap.set]
    by_cases e : k' = k
    · rw [if_pos e] at hk
      cases hk
      simp only [if_pos e]
      rw [hg c (by simp), if_pos rfl, e]
      congr 1
      refine List.map_congr_left fun p hp => ?_
      have hm : p.2 ∈ m.map (·.2) := List.mem_map.2 ⟨p, hp, rfl⟩
      rw [hg p.2 (by simp only [List.map_cons]; exact List.mem_cons_of_mem _ hm), if_neg (by rintro h; rw [h] at hm; exact hnd.1 hm)]
    · rw [if_neg e] at hk
      have hm : c ∈ m.map (·.2) := List.mem_map.2 ⟨_, get_mem hk, rfl⟩
      have hlt : ¬ keyLt k k' = true := by
        have := hs.1 _ (get_mem hk)
        intro h
        have := keyLt_asymm h
        simp_all
      simp only [if_neg e, if_neg hlt]
      rw [hg v (by simp), if_neg (by rintro rfl; exact hnd.1 hm), ih hnd.2 hk hs.2 fun x hx => hg x (by simp only [List.map_cons]; exact List.mem_cons_of_mem _ hx)]

/-! ## A value depends on what is inside -/

mutual
theorem slotIs_frame {c c' : Nat → Content} {P : Nat → Prop} (hP : ∀ a x b, P a → x ∈ (c' a).slots → x.sto = some b → P b) :
    ∀ (v : Val) {x : Slot}, SlotIs c v x → (∀ a, x.sto = some a → P a) → (∀ a s, x.sto = some a → Inside c a s → P s → c' s = c s) → SlotIs c' v x
  | .null, _, h, _, _ => h
  | .bool _, _, h, _, _ => h
  | .int _, _, h, _, _ => h
  | .uint _, _, h, _, _ => h
  | .flt _, _, h, _, _ => h
  | .str b, x, h, h1, h2 => by
    obtain ⟨s, rfl, h3⟩ := h
    exact ⟨s, rfl, by rw [h2 s s rfl (.refl s) (h1 s rfl), h3]⟩
  | .blob b, x, h, h1, h2 => by
    obtain ⟨s, rfl, h3⟩ := h
    exact ⟨s, rfl, by rw [h2 s s rfl (.refl s) (h1 s rfl), h3]⟩
  | .list vs, x, h, h1, h2 => by
    rw [SlotIs] at h
    obtain ⟨s, xs, rfl, h3, h4⟩ := h
    have h5 := h2 s s rfl (.refl s) (h1 s rfl)
    rw [SlotIs]
    refine ⟨s, xs, rfl, by rw [h5, h3], allIs_frame hP vs h4 (fun x hx a ha => ?_) (fun x hx a b ha hb => ?_)⟩
    · exact hP s x a (h1 s rfl) (by rw [h5, h3]; exact hx) ha
    · exact h2 s b rfl (.head (by rw [h3]; exact hx) ha hb)
  | .map m, x, h, h1, h2 => by
    rw [SlotIs] at h
    obtain ⟨s, xs, rfl, h3, h4⟩ := h
    have h5 := h2 s s rfl (.refl s) (h1 s rfl)
    rw [SlotIs]
    refine ⟨s, xs, rfl, by rw [h5, h3], mapIs_frame hP m h4 (fun x hx a ha => ?_) (fun x hx a b ha hb => ?_)⟩
    · exact hP s x a (h1 s rfl) (by rw [h5, h3]; exact hx) ha
    · exact h2 s b rfl (.head (by rw [h3]; exact hx) ha hb)
theorem allIs_frame {c c' : Nat → Content} {P : Nat → Prop} (hP : ∀ a x b, P a → x ∈ (c' a).slots → x.sto = some b → P b) :
    ∀ (vs : List Val) {xs : List Slot}, AllIs c vs xs → (∀ x ∈ xs, ∀ a, x.sto = some a → P a) → (∀ x ∈ xs, ∀ a s, x.sto = some a → Inside c a s → P s → c' s = c s) →
      AllIs c' vs xs
  | [], _, h, _, _ => h
  | v :: vs, xs, h, h1, h2 => by
    rw [AllIs] at h
    obtain ⟨x, r, rfl, h3, h4⟩ := h
    rw [AllIs]
    exact ⟨x, r, rfl, slotIs_frame hP v h3 (h1 x (by simp)) (h2 x (by simp)),
      allIs_frame hP vs h4 (fun y hy => h1 y (List.mem_cons_of_mem _ hy)) (fun y hy => h2 y (List.mem_cons_of_mem _ hy))⟩
theorem mapIs_frame {c c' : Nat → Content} {P : Nat → Prop} (hP : ∀ a x b, P a → x ∈ (c' a).slots → x.sto = some b → P b) :
    ∀ (m : List (Bytes × Val)) {ms : List (Bytes × Slot)}, MapIs c m ms → (∀ x ∈ ms.map (·.2), ∀ a, x.sto = some a → P a) →
      (∀ x ∈ ms.map (·.2), ∀ a s, x.sto = some a → Inside c a s → P s → c' s = c s) → MapIs c' m ms
  | [], _, h, _, _ => h
  | (k, v) :: m, ms, h, h1, h2 => by
    rw [MapIs] at h
    obtain ⟨x, r, rfl, h3, h4⟩ := h
    rw [MapIs]
    exact ⟨x, r, rfl, slotIs_frame hP v h3 (h1 x (by simp)) (h2 x (by simp)),
      mapIs_frame hP m h4 (fun y hy => h1 y (by simp only [List.map_cons]; exact List.mem_cons_of_mem _ hy))
        (fun y hy => h2 y (by simp only [List.map_cons]; exact List.mem_cons_of_mem _ hy))⟩
end

theorem slots_live {st : St} (hi : Inv0 st) {a b : Nat} {x : Slot} (ha : st.liveS a) (hx : x ∈ (content st a).slots) (hb : x.sto = some b) :
    st.liveS b ∧ Edge st a b := by
  rw [content, slots_el, List.mem_map] at hx
  obtain ⟨e, he, rfl⟩ := hx
  exact ⟨hi.stoLive e b (hi.elems a e ha he).1 hb, ha, e, he, hb⟩

theorem inside_below {st : St} (hi : Inv0 st) {a b : Nat} (h : Inside (content st) a b) (ha : st.liveS a) : Below st a b := by
  induction h with
  | refl => exact .refl _
  | head h1 h2 _ ih =>
    obtain ⟨h3, h4⟩ := slots_live hi ha h1 h2
    exact .head h4 (ih h3)

/-- The value of contents does not change when nothing inside changes. -/
theorem is_frame {st st' : St} (hi : Inv0 st) (hi' : Inv0 st') {v : Val} {x : Slot} (h : SlotIs (content st) v x) (hl : ∀ a, x.sto = some a → st.liveS a)
    (hl' : ∀ a, x.sto = some a → st'.liveS a) (hc : ∀ a s, x.sto = some a → Below st a s → st'.liveS s → content st' s = content st s) :
    SlotIs (content st') v x :=
  slotIs_frame (P := st'.liveS) (fun _ _ _ ha hx hb => (slots_live hi' ha hx hb).1) v h hl' fun a s ha hs hp => hc a s ha (inside_below hi hs (hl a ha)) hp

theorem allIs_mono {c c' : Nat → Content} {vs : List Val} {xs : List Slot} (h : AllIs c vs xs) (hk : ∀ x ∈ xs, ∀ v, SlotIs c v x → SlotIs c' v x) : AllIs c' vs xs := by
  induction vs generalizing xs with
  | nil => exact h
  | cons v vs ih =>
    rw [AllIs] at h
    obtain ⟨x, r, rfl, h1, h2⟩ := h
    exact ⟨x, r, rfl, hk x (by simp) v h1, ih h2 fun y hy => hk y (List.mem_cons_of_mem _ hy)⟩

theorem mapIs_mono {c c' : Nat → Content} {m : List (Bytes × Val)} {ms : List (Bytes × Slot)} (h : MapIs c m ms) (hk : ∀ p ∈ ms, ∀ v, SlotIs c v p.2 → SlotIs c' v p.2) :
    MapIs c' m ms := by
  induction m generalizing ms with
  | nil => exact h
  | cons p m ih =>
    rw [MapIs] at h
    obtain ⟨x, r, rfl, h1, h2⟩ := h
    exact ⟨x, r, rfl, hk (p.1, x) (by simp) _ h1, ih h2 fun y hy => hk y (List.mem_cons_of_mem _ hy)⟩

/-- One element changed, the others are what they were. -/
theorem allIs_update {c c' : Nat → Content} {f : Nat → Slot} {vs : List Val} {es : List Nat} {i x : Nat} {w : Val} {y : Slot} (h : AllIs c vs (es.map f)) (hnd : es.Nodup)
    (hi : es[i]? = some x) (hk : ∀ e ∈ es, e ≠ x → ∀ v, SlotIs c v (f e) → SlotIs c' v (f e)) (hw : SlotIs c' w y) : AllIs c' (vs.set i w) ((es.map f).set i y) := by
  induction vs generalizing es i with
  | nil =>
    rw [AllIs, List.map_eq_nil_iff] at h
    rw [h] at hi; simp at hi
  | cons v vs ih =>
    rw [AllIs] at h
    obtain ⟨z, r, h0, h1, h2⟩ := h
    cases es with
    | nil => cases h0
    | cons e es =>
      cases h0
      rw [List.nodup_cons] at hnd
      cases i with
      | zero =>
        simp only [List.getElem?_cons_zero, Option.some.injEq] at hi
        subst hi
        refine ⟨y, _, rfl, hw, allIs_mono h2 fun z hz v hv => ?_⟩
        obtain ⟨e', he', rfl⟩ := List.mem_map.1 hz
        exact hk e' (List.mem_cons_of_mem _ he') (by rintro rfl; exact hnd.1 he') v hv
      | succ i =>
        simp only [List.getElem?_cons_succ] at hi
        refine ⟨f e, _, rfl, hk e (by simp) ?_ v h1, ih h2 hnd.2 hi fun e' he' => hk e' (List.mem_cons_of_mem _ he')⟩
        rintro rfl
        exact hnd.1 (List.mem_of_getElem? hi)

theorem mapIs_update {c c' : Nat → Content} {f : Nat → Slot} {mv : List (Bytes × Val)} {m : List (Bytes × Nat)} {k : Bytes} {x : Nat} {w : Val} {y : Slot}
    (h : MapIs c mv (m.map fun p => (p.1, f p.2))) (hs : AMap.Sorted m) (hnd : (m.map (·.2)).Nodup) (hi : AMap.get m k = some x)
    (hk : ∀ e ∈ m.map (·.2), e ≠ x → ∀ v, SlotIs c v (f e) → SlotIs c' v (f e)) (hw : SlotIs c' w y) :
    MapIs c' (AMap.set mv k w) (AMap.set (m.map fun p => (p.1, f p.2)) k y) := by
  induction mv generalizing m with
  | nil =>
    rw [MapIs, List.map_eq_nil_iff] at h
    rw [h] at hi; cases hi
  | cons p mv ih =>
    obtain ⟨k1, v⟩ := p
    rw [MapIs] at h
    obtain ⟨z, r, h0, h1, h2⟩ := h
    cases m with
    | nil => cases h0
    | cons q m =>
      obtain ⟨k2, e⟩ := q
      rw [List.map_cons] at h0
      simp only [List.cons.injEq, Prod.mk.injEq] at h0
      obtain ⟨⟨rfl, rfl⟩, rfl⟩ := h0
      rw [List.map_cons, List.nodup_cons] at hnd
      rw [AMap.get] at hi
      rw [List.map_cons, AMap.set, AMap.set]
      by_cases ek : k2 = k
      · rw [if_pos ek] at hi
        cases hi
        simp only [if_pos ek]
        refine ⟨y, _, rfl, hw, mapIs_mono h2 fun z hz v hv => ?_⟩
        obtain ⟨q, hq, rfl⟩ := List.mem_map.1 hz
        have hm : q.2 ∈ m.map (·.2) := List.mem_map.2 ⟨q, hq, rfl⟩
        exact hk q.2 (by simp only [List.map_cons]; exact List.mem_cons_of_mem _ hm) (fun h => hnd.1 (h ▸ hm)) v hv
      · rw [if_neg ek] at hi
        have hm : x ∈ m.map (·.2) := List.mem_map.2 ⟨_, get_mem hi, rfl⟩
        have hlt : ¬ keyLt k k2 = true := by
          have := hs.1 _ (get_mem hi)
          intro h
          have := keyLt_asymm h
          simp_all
        simp only [if_neg ek, if_neg hlt]
        exact ⟨f e, _, rfl, hk e (by simp) (by rintro rfl; exact hnd.1 hm) v h1,
          ih h2 hs.2 hnd.2 hi fun e' he' => hk e' (by simp only [List.map_cons]; exact List.mem_cons_of_mem _ he')⟩

theorem content_congr {st st' : St} {s : Nat} (hc : (st'.store s).cell = (st.store s).cell) (h : ∀ e, e ∈ st.el s → st'.sl e = st.sl e) : content st' s = content st s := by
  rw [content, content, hc]
  rw [St.el] at h
  cases hs : (st.store s).cell with
  | list cap es =>
    rw [hs, Cell.elems] at h
    rw [contentOf, contentOf, List.map_congr_left h]
  | map m =>
    rw [hs] at h
    rw [contentOf, contentOf, List.map_congr_left fun p hp => by rw [h p.2 (List.mem_map.2 ⟨p, hp, rfl⟩)]]
  | _ => rfl

end Verif.Ref
