import Verif.Ref.Container
import Verif.Val.Compare
/-!
# CopyDoes of values
-/

namespace Verif.Ref
open Verif

/-! ## An object has one value -/

mutual
theorem slotIs_unique {c : Nat → Content} : ∀ (v : Val) {w : Val} {x : Slot}, SlotIs c v x → SlotIs c w x → v = w
  | .null, w, x, h, h2 => by rw [SlotIs] at h; subst h; exact (is_null h2).symm
  | .bool b, w, x, h, h2 => by rw [SlotIs] at h; subst h; exact (is_sca h2).symm
  | .int b, w, x, h, h2 => by rw [SlotIs] at h; subst h; exact (is_sca h2).symm
  | .uint b, w, x, h, h2 => by rw [SlotIs] at h; subst h; exact (is_sca h2).symm
  | .flt b, w, x, h, h2 => by rw [SlotIs] at h; subst h; exact (is_sca h2).symm
  | .str b, w, x, h, h2 => by rw [SlotIs] at h; obtain ⟨s, rfl, h3⟩ := h; exact (is_str h2 h3).symm
  | .blob b, w, x, h, h2 => by rw [SlotIs] at h; obtain ⟨s, rfl, h3⟩ := h; exact (is_blob h2 h3).symm
  | .list vs, w, x, h, h2 => by
    rw [SlotIs] at h
    obtain ⟨s, xs, rfl, h3, h4⟩ := h
    obtain ⟨ws, rfl, h5⟩ := is_list h2 h3
    rw [allIs_unique vs h4 h5]
  | .map m, w, x, h, h2 => by
    rw [SlotIs] at h
    obtain ⟨s, xs, rfl, h3, h4⟩ := h
    obtain ⟨ws, rfl, h5⟩ := is_map h2 h3
    rw [mapIs_unique m h4 h5]
theorem allIs_unique {c : Nat → Content} : ∀ (v : List Val) {w : List Val} {x : List Slot}, AllIs c v x → AllIs c w x → v = w
  | [], w, x, h, h2 => by
    rw [AllIs] at h
    subst h
    cases w with
    | nil => rfl
    | cons a w => rw [AllIs] at h2; obtain ⟨_, _, h, _⟩ := h2; cases h
  | a :: v, w, x, h, h2 => by
    rw [AllIs] at h
    obtain ⟨y, r, rfl, h3, h4⟩ := h
    cases w with
    | nil => rw [AllIs] at h2; cases h2
    | cons b w =>
      rw [AllIs] at h2
      obtain ⟨_, _, e, h5, h6⟩ := h2
      cases e
      rw [slotIs_unique a h3 h5, allIs_unique v h4 h6]
theorem mapIs_unique {c : Nat → Content} : ∀ (v : List (Bytes × Val)) {w : List (Bytes × Val)} {x : List (Bytes × Slot)}, MapIs c v x → MapIs c w x → v = w
  | [], w, x, h, h2 => by
    rw [MapIs] at h
    subst h
    cases w with
    | nil => rfl
    | cons a w => rw [MapIs] at h2; obtain ⟨_, _, h, _⟩ := h2; cases h
  | (k, a) :: v, w, x, h, h2 => by
    rw [MapIs] at h
    obtain ⟨y, r, rfl, h3, h4⟩ := h
    cases w with
    | nil => rw [MapIs] at h2; cases h2
    | cons b w =>
      obtain ⟨k2, b⟩ := b
      rw [MapIs] at h2
      obtain ⟨_, _, e, h5, h6⟩ := h2
      cases e
      rw [slotIs_unique a h3 h5, mapIs_unique v h4 h6]
end

/-- An object has at most one value. -/
theorem is_unique {st : St} {x : Nat} {v w : Val} (h : Is st x v) (h2 : Is st x w) : v = w := slotIs_unique v h h2

/-! ## Values are at most as deep as there is storage -/

theorem countP_lt {p q : Nat → Bool} (l : List Nat) (h : ∀ x ∈ l, p x = true → q x = true) {y : Nat} (hy : y ∈ l) (hp : p y = false) (hq : q y = true) : l.countP p < l.countP q := by
  induction l with
  | nil => cases hy
  | cons a l ih =>
    have hle : l.countP p ≤ l.countP q := List.countP_mono_left fun x hx => h x (List.mem_cons_of_mem _ hx)
    rw [List.countP_cons, List.countP_cons]
    rcases List.mem_cons.1 hy with rfl | hy
    · rw [hp, hq]; simp; omega
    · have := ih (fun x hx => h x (List.mem_cons_of_mem _ hx)) hy
      have ha := h a (by simp)
      cases hpa : p a
      · simp; omega
      · rw [ha hpa]; simp; omega

open Classical in
/-- How many storages are below. -/
noncomputable def weight (st : St) (s : Nat) : Nat := (List.range st.nStore).countP fun b => decide (Below st s b)

theorem weight_lt {st : St} (hi : Inv0 st) (hn : ¬ Cyc st) {a b : Nat} (h : Edge st a b) : weight st b < weight st a := by
  refine countP_lt _ (fun x _ hx => ?_) (y := a) (List.mem_range.2 (hi.storeBound a h.1)) ?_ ?_
  · simp only [decide_eq_true_eq] at hx ⊢
    exact .head h hx
  · simp only [decide_eq_false_iff_not]
    exact fun hb => hn ⟨a, b, h, hb⟩
  · simp only [decide_eq_true_eq]
    exact .refl a

theorem all_exists {c : Nat → Content} : ∀ (xs : List Slot), (∀ x ∈ xs, ∃ v, SlotIs c v x) → ∃ vs, AllIs c vs xs
  | [], _ => ⟨[], rfl⟩
  | x :: xs, h => by
    obtain ⟨v, h1⟩ := h x (by simp)
    obtain ⟨vs, h2⟩ := all_exists xs fun y hy => h y (List.mem_cons_of_mem _ hy)
    exact ⟨v :: vs, by rw [AllIs]; exact ⟨x, xs, rfl, h1, h2⟩⟩

theorem map_exists {c : Nat → Content} : ∀ (xs : List (Bytes × Slot)), (∀ x ∈ xs, ∃ v, SlotIs c v x.2) → ∃ vs, MapIs c vs xs
  | [], _ => ⟨[], rfl⟩
  | (k, x) :: xs, h => by
    obtain ⟨v, h1⟩ := h (k, x) (by simp)
    obtain ⟨vs, h2⟩ := map_exists xs fun y hy => h y (List.mem_cons_of_mem _ hy)
    exact ⟨(k, v) :: vs, by rw [MapIs]; exact ⟨x, xs, rfl, h1, h2⟩⟩

theorem value_exists {st : St} (hi : Inv0 st) (hn : ¬ Cyc st) : ∀ (n x : Nat), Value st x → (∀ s, (st.sl x).sto = some s → weight st s < n) → ∃ v, Is st x v
  | 0, x, hx, h => by
    have hp := hx.2
    cases hs : st.sl x with
    | null => exact ⟨.null, by rw [Is, hs, SlotIs]⟩
    | sca c => exact ⟨c.val, by rw [Is, hs]; cases c <;> rw [Sca.val, SlotIs]⟩
    | ref t => rw [hs] at hp; cases hp
    | proxy t p k => rw [hs] at hp; cases hp
    | str s => exact absurd (h s (by rw [hs]; rfl)) (by omega)
    | list s => exact absurd (h s (by rw [hs]; rfl)) (by omega)
    | map s => exact absurd (h s (by rw [hs]; rfl)) (by omega)
    | blob s => exact absurd (h s (by rw [hs]; rfl)) (by omega)
  | n + 1, x, hx, h => by
    have hp := hx.2
    have inner : ∀ s, (st.sl x).sto = some s → ∀ e ∈ st.el s, ∃ v, Is st e v := by
      intro s hs e he
      have hls := hi.stoLive x s hx.1 hs
      have hel := hi.elems s e hls he
      refine value_exists hi hn n e ⟨hel.1, hel.2.1⟩ fun b hb => ?_
      have h1 := weight_lt hi hn ⟨hls, e, he, hb⟩
      have := h s hs
      omega
    cases hs : st.sl x with
    | null => exact ⟨.null, by rw [Is, hs, SlotIs]⟩
    | sca c => exact ⟨c.val, by rw [Is, hs]; cases c <;> rw [Sca.val, SlotIs]⟩
    | ref t => rw [hs] at hp; cases hp
    | proxy t p k => rw [hs] at hp; cases hp
    | str s =>
      obtain ⟨_, b, h2⟩ := cell_str hi hx.1 hs
      exact ⟨.str b, by rw [Is, hs, SlotIs]; exact ⟨s, rfl, by rw [content, h2]; rfl⟩⟩
    | blob s =>
      obtain ⟨_, b, h2⟩ := cell_blob hi hx.1 hs
      exact ⟨.blob b, by rw [Is, hs, SlotIs]; exact ⟨s, rfl, by rw [content, h2]; rfl⟩⟩
    | list s =>
      obtain ⟨_, cap, es, h2⟩ := cell_list hi hx.1 hs
      obtain ⟨vs, h3⟩ := all_exists (c := content st) (es.map st.sl) fun y hy => by
        obtain ⟨e, he, rfl⟩ := List.mem_map.1 hy
        exact inner s (by rw [hs]; rfl) e (by rw [St.el, h2]; exact he)
      exact ⟨.list vs, by rw [Is, hs, SlotIs]; exact ⟨s, _, rfl, by rw [content, h2]; rfl, h3⟩⟩
    | map s =>
      obtain ⟨_, m, h2⟩ := cell_map hi hx.1 hs
      obtain ⟨vs, h3⟩ := map_exists (c := content st) (m.map fun p => (p.1, st.sl p.2)) fun y hy => by
        obtain ⟨e, he, rfl⟩ := List.mem_map.1 hy
        exact inner s (by rw [hs]; rfl) e.2 (by rw [St.el, h2]; exact List.mem_map.2 ⟨e, he, rfl⟩)
      exact ⟨.map vs, by rw [Is, hs, SlotIs]; exact ⟨s, _, rfl, by rw [content, h2]; rfl, h3⟩⟩

theorem weight_le (st : St) (s : Nat) : weight st s ≤ st.nStore := by
  rw [weight]
  refine Nat.le_trans List.countP_le_length ?_
  simp

/-- The value is less than `n` deep. -/
def Deep : Nat → Val → Prop
  | 0, _ => False
  | n + 1, .list vs => ∀ v ∈ vs, Deep n v
  | n + 1, .map m => ∀ p ∈ m, Deep n p.2
  | _ + 1, _ => True

theorem allIs_mem {c : Nat → Content} {vs : List Val} {xs : List Slot} (h : AllIs c vs xs) : ∀ v ∈ vs, ∃ x ∈ xs, SlotIs c v x := by
  induction vs generalizing xs with
  | nil => intro v hv; cases hv
  | cons w vs ih =>
    rw [AllIs] at h
    obtain ⟨x, r, rfl, h1, h2⟩ := h
    intro v hv
    rcases List.mem_cons.1 hv with rfl | hv
    · exact ⟨x, by simp, h1⟩
    · obtain ⟨y, h3, h4⟩ := ih h2 v hv
      exact ⟨y, List.mem_cons_of_mem _ h3, h4⟩

theorem mapIs_mem {c : Nat → Content} {m : List (Bytes × Val)} {ms : List (Bytes × Slot)} (h : MapIs c m ms) : ∀ p ∈ m, ∃ x, (p.1, x) ∈ ms ∧ SlotIs c p.2 x := by
  induction m generalizing ms with
  | nil => intro v hv; cases hv
  | cons w vs ih =>
    rw [MapIs] at h
    obtain ⟨x, r, rfl, h1, h2⟩ := h
    intro v hv
    rcases List.mem_cons.1 hv with rfl | hv
    · exact ⟨x, by simp, h1⟩
    · obtain ⟨y, h3, h4⟩ := ih h2 v hv
      exact ⟨y, List.mem_cons_of_mem _ h3, h4⟩

theorem deep_weight {st : St} (hi : Inv0 st) (hn : ¬ Cyc st) : ∀ (n : Nat) {x : Slot} {v : Val}, SlotIs (content st) v x → (∀ s, x.sto = some s → st.liveS s ∧ weight st s < n) → Deep (n + 1) v
  | n, x, .null, _, _ => by rw [Deep] <;> simp
  | n, x, .bool _, _, _ => by rw [Deep] <;> simp
  | n, x, .int _, _, _ => by rw [Deep] <;> simp
  | n, x, .uint _, _, _ => by rw [Deep] <;> simp
  | n, x, .flt _, _, _ => by rw [Deep] <;> simp
  | n, x, .str _, _, _ => by rw [Deep] <;> simp
  | n, x, .blob _, _, _ => by rw [Deep] <;> simp
  | n, x, .list vs, h, hw => by
    rw [SlotIs] at h
    obtain ⟨s, xs, rfl, h1, h2⟩ := h
    obtain ⟨h3, h4⟩ := hw s rfl
    rw [Deep]
    intro v hv
    obtain ⟨y, hy, h5⟩ := allIs_mem h2 v hv
    cases n with
    | zero => omega
    | succ n =>
      refine deep_weight hi hn n h5 fun b hb => ?_
      obtain ⟨h6, h7⟩ := slots_live hi h3 (x := y) (by rw [h1]; exact hy) hb
      have := weight_lt hi hn h7
      exact ⟨h6, by omega⟩
  | n, x, .map m, h, hw => by
    rw [SlotIs] at h
    obtain ⟨s, xs, rfl, h1, h2⟩ := h
    obtain ⟨h3, h4⟩ := hw s rfl
    rw [Deep]
    intro v hv
    obtain ⟨y, hy, h5⟩ := mapIs_mem h2 v hv
    cases n with
    | zero => omega
    | succ n =>
      refine deep_weight hi hn n h5 fun b hb => ?_
      obtain ⟨h6, h7⟩ := slots_live hi h3 (x := y) (by rw [h1]; exact List.mem_map.2 ⟨_, hy, rfl⟩) hb
      have := weight_lt hi hn h7
      exact ⟨h6, by omega⟩

/-! ## Nothing but `d` changes -/

/-- Only `d` has changed, and what it owns is new. -/
structure Apt (st st' : St) (d : Nat) : Prop where
  inv : Inv st'
  bk : Bk st st'
  obj : ∀ x, st.live x → x ≠ d → st'.obj x = st.obj x
  store : ∀ s, st.liveS s → st'.store s = st.store s
  slot : ∃ y, st'.obj d = { st.obj d with slot := y } ∧ y.plain = true ∧ ∀ s, y.sto = some s → st.nStore ≤ s

theorem Apt.value {st st' : St} {d : Nat} (h : Apt st st' d) (hd : st.live d) : Value st' d := by
  obtain ⟨y, h1, h2, _⟩ := h.slot
  exact ⟨by rw [St.live, h1]; exact hd, by rw [St.sl, h1]; exact h2⟩

theorem Apt.home {st st' : St} {d : Nat} (h : Apt st st' d) : (st'.obj d).home = (st.obj d).home := by
  obtain ⟨y, h1, _⟩ := h.slot
  rw [h1]

theorem Apt.liveS {st st' : St} {d s : Nat} (h : Apt st st' d) (hs : st.liveS s) : st'.liveS s := by rw [St.liveS, h.store s hs]; exact hs

theorem Apt.content {st st' : St} {d s : Nat} (hi : Inv0 st) (hd : (st.obj d).home = none) (h : Apt st st' d) (hs : st.liveS s) : content st' s = content st s := by
  refine content_congr (by rw [h.store s hs]) fun e he => ?_
  obtain ⟨h1, _, h2⟩ := hi.elems s e hs he
  rw [St.sl, h.obj e h1 (by rintro rfl; rw [hd] at h2; cases h2)]

theorem Apt.keep {st st' : St} {d : Nat} (hi : Inv0 st) (hd : (st.obj d).home = none) (h : Apt st st' d) {w : Val} {x : Slot} (hw : SlotIs (Ref.content st) w x)
    (hl : ∀ a, x.sto = some a → st.liveS a) : SlotIs (Ref.content st') w x :=
  is_frame hi h.inv.toInv0 hw hl (fun a ha => h.liveS (hl a ha)) fun _ _ ha hb _ => h.content hi hd (hb.alive hi (hl _ ha))

theorem Temp.content {st st1 : St} {d s : Nat} (hi : Inv0 st) (h : Temp st st1 d) (hs : st.liveS s) : content st1 s = content st s := by
  refine content_congr (by rw [h.store]) fun e he => ?_
  rw [St.sl, (h.live hi (hi.elems s e hs he).1).2.1]

theorem Temp.liveS {st st1 : St} {d s : Nat} (h : Temp st st1 d) : st1.liveS s ↔ st.liveS s := by rw [St.liveS, h.store]

theorem Temp.keep {st st1 : St} {d : Nat} (hi : Inv0 st) (h : Temp st st1 d) {w : Val} {x : Slot} (hw : SlotIs (Ref.content st) w x)
    (hl : ∀ a, x.sto = some a → st.liveS a) : SlotIs (Ref.content st1) w x :=
  is_frame hi h.inv.toInv0 hw hl (fun a ha => h.liveS.2 (hl a ha)) fun _ _ ha hb _ => h.content hi (hb.alive hi (hl _ ha))

/-! ## An element is added -/

/-- An element with contents `x` was added to `s`. -/
structure Puts (st st' : St) (s : Nat) (x : Slot) : Prop where
  grew : Grew st st' s
  edge : ∀ a b, Edge st' a b → Edge st a b ∨ a = s ∧ x.sto = some b
  own : ∃ c, st'.live c ∧ (st'.obj c).home = some s ∧ st'.sl c = x
  nStore : st'.nStore = st.nStore

theorem extend_puts {st : St} (hi : Inv st) (grow : Nat → Nat → Nat) {s cap : Nat} {es : List Nat} {x : Slot} (hs : st.liveS s) (hc : (st.store s).cell = .list cap es)
    (hx : Good st x) : Puts st (st.extend grow s cap es [x]) s x ∧ content (st.extend grow s cap es [x]) s = .list (es.map st.sl ++ [x]) := by
  have hE := extend_extends hi grow hs hc (slots := [x]) (fun y hy => by rw [List.mem_singleton.1 hy]; exact hx)
  have hel : st.el s = es := by rw [St.el, hc]; rfl
  obtain ⟨cap', es', g1, g2, _⟩ := extend_elems grow (st := st) (s := s) (cap := cap) (es := es) (slots := [x]) (fun x hx => hi.objBound x (hi.elems s x hs (by rw [hel]; exact hx)).1)
  generalize st.extend grow s cap es [x] = st' at hE g1 g2
  have hcont : content st' s = .list (es.map st.sl ++ [x]) := by rw [content, g1, contentOf, g2]
  refine ⟨⟨hE.grew hi.toInv0 hs hc, fun a b h => ?_, ?_, hE.nStore⟩, hcont⟩
  · rcases hE.edge a b h with h | ⟨h1, y, h2, h3⟩
    · exact .inl h
    · rw [List.mem_singleton.1 h2] at h3; exact .inr ⟨h1, h3⟩
  · have hm : x ∈ es'.map st'.sl := by rw [g2]; simp
    obtain ⟨c, hc', rfl⟩ := List.mem_map.1 hm
    obtain ⟨h1, _, h2⟩ := hE.inv.elems s c hE.liveS (by rw [St.el, g1]; exact hc')
    exact ⟨c, h1, h2, rfl⟩

theorem insert_puts {st : St} (hi : Inv st) {s : Nat} {m : List (Bytes × Nat)} {k : Bytes} {x : Slot} (hs : st.liveS s) (hc : (st.store s).cell = .map m)
    (hx : Good st x) (hk : AMap.get m k = none) {st' : St} (hst' : (st.new (some s) [x]).setCell s (.map (AMap.set m k st.nObj)) = st') :
    Puts st st' s x ∧ content st' s = .map (AMap.set (m.map fun p => (p.1, st.sl p.2)) k x) := by
  have hel : st.el s = m.map (·.2) := by rw [St.el, hc]; rfl
  have hsort : AMap.Sorted m := by have := hi.cellOk s hs; rwa [hc] at this
  obtain ⟨a, b, hm, hset⟩ := set_split (v := st.nObj) hk
  have hel2 : (Cell.map (AMap.set m k st.nObj)).elems = a.map (·.2) ++ st.nObj :: b.map (·.2) := by
    rw [hset]; simp [Cell.elems]
  have hel1 : st.el s = a.map (·.2) ++ b.map (·.2) := by rw [hel, hm]; simp
  have hnd := hi.nodup s hs
  rw [hel1, List.nodup_append] at hnd
  have hnew : ∀ x, x ∈ st.el s → x ≠ st.nObj := fun x hx => by
    have := hi.objBound x (hi.elems s x hs hx).1; omega
  rw [hel1] at hnew
  have hg := new_grows hi.toInv0 hs (slots := [x]) (c := .map (AMap.set m k st.nObj)) (fun sl h => by
      rw [List.mem_singleton.1 h]; exact hx)
    (fun sl h => by rw [hc] at h; exact fits_map sl h) (AMap.sorted_set hsort k st.nObj)
    (by
      rw [hel2, List.nodup_append, List.nodup_cons]
      refine ⟨hnd.1, ⟨fun h => hnew _ (List.mem_append_right _ h) rfl, hnd.2.1⟩, fun x hx y hy => ?_⟩
      rcases List.mem_cons.1 hy with h | h
      · rw [h]; exact hnew x (List.mem_append_left _ hx)
      · exact hnd.2.2 x hx y h)
    (by
      intro x
      rw [hel2, hel1]
      simp only [List.mem_append, List.mem_cons, List.length_singleton]
      constructor
      · rintro (h | h | h)
        · exact .inl (.inl h)
        · right; omega
        · exact .inl (.inr h)
      · rintro ((h | h) | h)
        · exact .inl h
        · exact .inr (.inr h)
        · right; left; omega)
  have hcell : (st'.store s).cell = .map (AMap.set m k st.nObj) := by rw [← hst']; simp [St.setCell]
  have hstore : ∀ y, y ≠ s → st'.store y = st.store y := fun y hy => by rw [← hst']; simp [St.setCell, St.new, hy]
  rw [hst'] at hg
  have hold : ∀ y, st.live y → st'.obj y = st.obj y := fun y hy => hg.old hi.toInv0 hy
  have hi' : Inv st' := ⟨hg.inv hi.toInv0, fun y hy => hg.owned hi.toInv0 (hi.owned y ((hg.store y).1.1 hy))⟩
  have hs' : st'.liveS s := (hg.store s).1.2 hs
  have hlx : st'.live st.nObj := hg.isNew 0 (by simp)
  obtain ⟨sl, h1, h2⟩ := hg.newObj st.nObj (Nat.le_refl _) hlx
  rw [Nat.sub_self] at h1
  cases h1
  refine ⟨⟨⟨hi', ?_, fun z hz _ => hold z hz, hstore, hs'⟩, fun a b h => ?_, ⟨st.nObj, hlx, by rw [h2], by rw [St.sl, h2]⟩, hg.nStore⟩, ?_⟩
  · exact {
      env := hg.env
      holds := hg.holds
      nObj := by rw [hg.nObj]; omega
      nStore := Nat.le_of_eq hg.nStore.symm
      old := fun y hy hl => by
        have := hg.oldObj y hy
        exact ⟨by rw [St.live, ← this]; exact hl, by rw [this]⟩
      top := fun y hy _ => by rw [St.live, hold y hy]; exact hy
      new := fun y hy hl => by
        obtain ⟨sl, _, h⟩ := hg.newObj y hy hl
        rw [h]; simp
      kind := fun a _ hl => ⟨(hg.store a).1.1 hl, (hg.store a).2⟩
      stays := fun y hy _ => by rw [hold y hy]; exact .refl _ }
  · rcases hg.edge hi.toInv0 h with h | ⟨h4, sl, h5, h6⟩
    · exact .inl h
    · rw [List.mem_singleton.1 h5] at h6; cases h4; exact .inr ⟨rfl, h6⟩
  · rw [content, hcell, contentOf, set_map_snd]
    have : (m.map fun p => (p.1, st'.sl p.2)) = m.map fun p => (p.1, st.sl p.2) := List.map_congr_left fun p hp => by
      rw [St.sl, hold p.2 (hi.elems s p.2 hs (by rw [hel]; exact List.mem_map.2 ⟨p, hp, rfl⟩)).1]
    rw [this, St.sl, h2]

/-! ## One element is copied -/

theorem below_up {st st' : St} (hi : Inv0 st) (he : ∀ a b, Edge st' a b → Edge st a b ∨ st.nStore ≤ b ∧ a < b) {a b : Nat} (h : Below st' a b) (ha : st.nStore ≤ a) : a ≤ b := by
  induction h with
  | refl => exact Nat.le_refl _
  | head e _ ih =>
    rcases he _ _ e with h1 | h1
    · have := hi.storeBound _ h1.1; omega
    · have := ih h1.1; omega

theorem copy_elem {st stk : St} {d e : Nat} {v w : Val} {mk : Slot} {f put : Nat → M Unit} {K : Content} {K' : Slot → Content} (hi : Inv st) (hd : st.live d)
    (hdh : (st.obj d).home = none) (hA : Apt st stk d) (hsl : stk.sl d = mk) (hsto : mk.sto = some st.nStore) (hS : stk.liveS st.nStore)
    (he : Value st e) (hev : Is st e v) (hed : e ≠ d) (hK : content stk st.nStore = K)
    (hf : ∀ st1 c, Inv st1 → Value st1 e → Is st1 e v → Fresh st1 c → e ≠ c → ∃ st2, f c st1 = .ok () st2 ∧ Apt st1 st2 c ∧ Is st2 c w)
    (hput : ∀ st2 c, Inv st2 → Value st2 d → st2.sl d = mk → st2.liveS st.nStore → content st2 st.nStore = K → Value st2 c →
      ∃ st3, put c st2 = .ok () st3 ∧ Puts st2 st3 st.nStore (st2.sl c) ∧ content st3 st.nStore = K' (st2.sl c)) :
    ∃ stk' x, withTemp (fun c => f c >>= fun _ => put c) stk = .ok () stk' ∧ Apt st stk' d ∧ stk'.sl d = mk ∧ stk'.liveS st.nStore ∧ content stk' st.nStore = K' x ∧
      SlotIs (content stk') w x ∧ ∀ y ∈ K.slots, ∀ u, SlotIs (content stk) u y → SlotIs (content stk') u y := by
  have hik := hA.inv
  have hT := temp_temp hik
  generalize hcn : stk.nObj = c at hT
  generalize hst1 : stk.new none [.null] = st1 at hT
  -- the element is what it was
  have hek : stk.obj e = st.obj e := hA.obj e he.1 hed
  have helk : stk.live e := by rw [St.live, hek]; exact he.1
  obtain ⟨g1, g2, g3⟩ := hT.live hik.toInv0 helk
  have hel : ∀ a, (st.sl e).sto = some a → st.liveS a := fun a ha => hi.stoLive e a he.1 ha
  have hev1 : Is st1 e v := by
    have h1 := hA.keep hi.toInv0 hdh hev hel
    have h2 := hT.keep hik.toInv0 h1 fun a ha => hA.liveS (hel a ha)
    rw [Is, St.sl, g2, hek]; exact h2
  obtain ⟨st2, h1, h2, h3⟩ := hf st1 c hT.inv ⟨g1, by rw [St.sl, g2, hek]; exact he.2⟩ hev1 hT.fresh g3
  -- the copy
  have hdk : stk.live d := (hA.value hd).1
  obtain ⟨d1, d2, d3⟩ := hT.live hik.toInv0 hdk
  have dobj : st2.obj d = stk.obj d := by rw [h2.obj d d1 d3, d2]
  have hS1 : st1.liveS st.nStore := hT.liveS.2 hS
  have hS2 := h2.liveS hS1
  have hK2 : content st2 st.nStore = K := by rw [h2.content hT.inv.toInv0 hT.fresh.home hS1, hT.content hik.toInv0 hS, hK]
  have hcv := h2.value hT.fresh.live
  obtain ⟨st3, h4, h5, h6⟩ := hput st2 c h2.inv ⟨by rw [St.live, dobj]; exact hdk, by rw [St.sl, dobj]; exact (hA.value hd).2⟩ (by rw [St.sl, dobj]; exact hsl) hS2 hK2 hcv
  have hi3 := h5.grew.inv
  -- the local variable
  have hch2 : (st2.obj c).home = none := by rw [h2.home]; exact hT.fresh.home
  have hcel : c ∉ st2.el st.nStore := fun hm => by
    have := (h2.inv.elems _ c hS2 hm).2.2
    rw [hch2] at this; cases this
  have cobj : st3.obj c = st2.obj c := h5.grew.obj c hcv.1 hcel
  have hf13 : Fr st1 st3 := h2.bk.toFr.trans h5.grew.fr hT.inv.toInv0
  obtain ⟨hsh, _, hsafe⟩ := hT.close hik.toInv0 ⟨hi3, hf13⟩
  obtain ⟨o, o1, o2, o3⟩ := h5.own
  have hi4 : Inv (st3.kill [c]) := by
    refine kill_shared hi3 hsh o1 ?_ ?_
    · rintro rfl; rw [cobj, hch2] at o2; cases o2
    · rw [o3, St.sl, cobj]
  rw [collect_id hi4] at hsafe
  have hrun : withTemp (fun c => f c >>= fun _ => put c) stk = .ok () (st3.kill [c]) := by
    rw [withTemp, hcn, hst1, bind_ok h1, h4]
    simp only [collect_id hi4]
  have kobj : ∀ z, z ≠ c → (st3.kill [c]).obj z = st3.obj z := fun z hz => by rw [hsh.obj, if_neg (by simpa using hz)]
  have kstore : ∀ s, (st3.kill [c]).store s = st3.store s := fun s => rfl
  generalize st3.kill [c] = st4 at *
  have kcont : ∀ s, st3.liveS s → content st4 s = content st3 s := fun s hs => by
    refine content_congr (by rw [kstore]) fun z hz => ?_
    rw [St.sl, kobj z ?_]
    rintro rfl
    have := (hi3.elems s z hs hz).2.2
    rw [cobj, hch2] at this; cases this
  have hSlt : st.nStore < stk.nStore := hik.storeBound _ hS
  have hxnew : ∀ b, (st2.sl c).sto = some b → stk.nStore ≤ b := by
    obtain ⟨y, h7, _, h8⟩ := h2.slot
    intro b hb
    rw [St.sl, h7] at hb
    have := h8 b hb
    rwa [hT.nStore] at this
  have he2 : ∀ a b, Edge st2 a b → Edge stk a b ∨ stk.nStore ≤ b ∧ a < b := fun a b h => by
    rcases h2.bk.edge a b h with h | h
    · exact .inl (hT.edge h)
    · rw [hT.nStore] at h; exact .inr h
  have he4 : ∀ a b, Edge st4 a b → Edge stk a b ∨ stk.nStore ≤ b ∧ a < b := fun a b h => by
    have h7 : Edge st3 a b := by
      obtain ⟨h7, z, h8, h9⟩ := h
      rw [St.liveS, kstore] at h7
      rw [St.el, kstore] at h8
      have hz : z ≠ c := by
        rintro rfl
        have := (hi3.elems a z h7 h8).2.2
        rw [cobj, hch2] at this; cases this
      rw [St.sl, kobj z hz] at h9
      exact ⟨h7, z, h8, h9⟩
    rcases h5.edge a b h7 with h8 | ⟨h8, h9⟩
    · exact he2 a b h8
    · have := hxnew b h9
      exact .inr ⟨this, by omega⟩
  have hbk : Bk st st4 := hA.bk.trans ⟨hsafe.2, he4⟩ hi.toInv0
  have hup : ∀ a, st.nStore < a → ¬ Below st2 a st.nStore := fun a ha hb => by
    have := below_up hi.toInv0 (st' := st2) (fun a b h => by
      rcases he2 a b h with h | h
      · exact hA.bk.edge a b h
      · exact .inr ⟨by omega, h.2⟩) hb (by omega)
    omega
  -- objects outside the container
  have hout : ∀ z, stk.live z → (stk.obj z).home ≠ some st.nStore → st4.obj z = stk.obj z := fun z hz hh => by
    obtain ⟨z1, z2, z3⟩ := hT.live hik.toInv0 hz
    have z4 : st2.obj z = stk.obj z := by rw [h2.obj z z1 z3, z2]
    rw [kobj z z3, h5.grew.obj z (by rw [St.live, z4]; exact hz) ?_, z4]
    intro hm
    have := (h2.inv.elems _ z hS2 hm).2.2
    rw [z4] at this
    exact hh this
  have hdk4 : st4.obj d = stk.obj d := hout d hdk (by rw [hA.home, hdh]; simp)
  refine ⟨st4, st2.sl c, hrun, ⟨hi4, hbk, fun z hz hzd => ?_, fun s hs => ?_, ?_⟩, ?_, ?_, ?_, ?_, ?_⟩
  · have hzk := hA.obj z hz hzd
    rw [hout z (by rw [St.live, hzk]; exact hz) ?_, hzk]
    rw [hzk]
    intro hh
    have := hi.storeBound _ (hi.home z _ hz hh).1
    omega
  · have hne : s ≠ st.nStore := by have := hi.storeBound s hs; omega
    have hsk := hA.store s hs
    have hs1 : st1.liveS s := hT.liveS.2 (hA.liveS hs)
    rw [kstore, h5.grew.store s hne, h2.store s hs1, hT.store, hsk]
  · rw [hdk4]; exact hA.slot
  · rw [St.sl, hdk4]; exact hsl
  · rw [St.liveS, kstore]; exact h5.grew.liveS
  · rw [kcont _ h5.grew.liveS, h6]
  · have hl2 : ∀ a, (st2.sl c).sto = some a → st2.liveS a := fun a ha => h2.inv.stoLive c a hcv.1 ha
    have h7 := h5.grew.keep h2.inv.toInv0 hS2 h3 hl2 fun a ha => hup a (by have := hxnew a ha; omega)
    have hl3 : ∀ a, (st2.sl c).sto = some a → st3.liveS a := fun a ha => hi3.stoLive c a (by rw [St.live, cobj]; exact hcv.1) (by rw [St.sl, cobj]; exact ha)
    exact is_frame hi3.toInv0 hi4.toInv0 h7 hl3 (fun a ha => by rw [St.liveS, kstore]; exact hl3 a ha) fun a b ha hb _ => kcont b (hb.alive hi3.toInv0 (hl3 a ha))
  · intro y hy u hu
    have hlk : ∀ a, y.sto = some a → stk.liveS a ∧ st.nStore < a := fun a ha => by
      obtain ⟨h7, h8⟩ := slots_live hik.toInv0 hS (x := y) (by rw [hK]; exact hy) ha
      refine ⟨h7, ?_⟩
      rcases hA.bk.edge _ _ h8 with h9 | h9
      · have := hi.storeBound _ h9.1; omega
      · exact h9.2
    have h7 := hT.keep hik.toInv0 hu fun a ha => (hlk a ha).1
    have h8 := h2.keep hT.inv.toInv0 hT.fresh.home h7 fun a ha => hT.liveS.2 (hlk a ha).1
    have hl2 : ∀ a, y.sto = some a → st2.liveS a := fun a ha => h2.liveS (hT.liveS.2 (hlk a ha).1)
    have h9 := h5.grew.keep h2.inv.toInv0 hS2 h8 hl2 fun a ha => hup a (hlk a ha).2
    have hl3 : ∀ a, y.sto = some a → st3.liveS a := fun a ha => by
      by_cases e : a = st.nStore
      · rw [e]; exact h5.grew.liveS
      · rw [St.liveS, h5.grew.store a e]; exact hl2 a ha
    exact is_frame hi3.toInv0 hi4.toInv0 h9 hl3 (fun a ha => by rw [St.liveS, kstore]; exact hl3 a ha) fun a b ha hb _ => kcont b (hb.alive hi3.toInv0 (hl3 a ha))

theorem run_pushBack {st : St} (hi : Inv st) (grow : Nat → Nat → Nat) {d c s : Nat} {xs : List Slot} (hd : Value st d) (hsl : st.sl d = .list s) (hK : content st s = .list xs)
    (hc : Value st c) : ∃ st', pushBack grow d c st = .ok () st' ∧ Puts st st' s (st.sl c) ∧ content st' s = .list (xs ++ [st.sl c]) := by
  obtain ⟨hs, cap, es, h1⟩ := cell_list hi.toInv0 hd.1 hsl
  rw [content, h1, contentOf] at hK
  cases hK
  refine ⟨st.extend grow s cap es [st.sl c], ?_, extend_puts hi grow hs h1 (hc.good hi.toInv0)⟩
  rw [pushBack, bind_ok (run_plain hd.1 hd.2), hsl]
  simp only
  rw [bind_ok (run_plain hc.1 hc.2), bind_ok (run_load hs), h1]
  rfl

theorem run_insertCopy {st : St} (hi : Inv st) {k : Bytes} {d c s : Nat} {ms : List (Bytes × Slot)} (hd : Value st d) (hsl : st.sl d = .map s) (hK : content st s = .map ms)
    (hk : AMap.get ms k = none) (hc : Value st c) : ∃ st', insertCopy k d c st = .ok () st' ∧ Puts st st' s (st.sl c) ∧ content st' s = .map (AMap.set ms k (st.sl c)) := by
  obtain ⟨hs, m, h1⟩ := cell_map hi.toInv0 hd.1 hsl
  rw [content, h1, contentOf] at hK
  cases hK
  rw [get_map_snd, Option.map_eq_none_iff] at hk
  refine ⟨_, ?_, insert_puts hi hs h1 (hc.good hi.toInv0) hk rfl⟩
  rw [insertCopy, bind_ok (run_plain hd.1 hd.2), hsl]
  simp only
  rw [bind_ok (run_plain hc.1 hc.2), bind_ok (run_load hs), h1]
  simp only [hk]
  rfl

/-- What copying does. -/
def CopyDoes (grow : Nat → Nat → Nat) (n : Nat) : Prop :=
  ∀ (st : St) (t d : Nat) (v : Val), Inv st → Value st t → Is st t v → Deep n v → st.live d → (st.obj d).home = none → st.sl d = .null → t ≠ d →
    ∃ st', copyObj grow n t d st = .ok () st' ∧ Apt st st' d ∧ Is st' d (deepCopy v)

theorem each_list {grow : Nat → Nat → Nat} {n : Nat} (hC : CopyDoes grow n) {st : St} {d : Nat} (hi : Inv st) (hd : st.live d) (hdh : (st.obj d).home = none) :
    ∀ (es : List Nat) (vs : List Val) {stk : St} {xs : List Slot} {ws : List Val}, Apt st stk d → stk.sl d = .list st.nStore → stk.liveS st.nStore →
      (∀ e ∈ es, Value st e ∧ e ≠ d) → (∀ v ∈ vs, Deep n v) → AllIs (content st) vs (es.map st.sl) → content stk st.nStore = .list xs → AllIs (content stk) ws xs →
      ∃ st' ys, each (fun e => withTemp fun c => copyObj grow n e c >>= fun _ => pushBack grow d c) es stk = .ok () st' ∧ Apt st st' d ∧ st'.sl d = .list st.nStore ∧
        content st' st.nStore = .list ys ∧ AllIs (content st') (ws ++ deepCopyList vs) ys
  | [], vs, stk, xs, ws, hA, hsl, hS, _, _, h1, h2, h3 => by
    cases vs with
    | nil => exact ⟨stk, xs, rfl, hA, hsl, h2, by rw [deepCopyList, List.append_nil]; exact h3⟩
    | cons v vs => rw [AllIs] at h1; obtain ⟨_, _, h, _⟩ := h1; cases h
  | e :: es, vs, stk, xs, ws, hA, hsl, hS, he, hv, h1, h2, h3 => by
    cases vs with
    | nil => rw [AllIs] at h1; cases h1
    | cons v vs =>
      rw [AllIs] at h1
      obtain ⟨x, r, h4, h5, h6⟩ := h1
      cases h4
      obtain ⟨stk', y, g1, g2, g3, g4, g5, g6, g7⟩ := copy_elem (st := st) (stk := stk) (d := d) (e := e) (v := v) (w := deepCopy v) (f := fun c => copyObj grow n e c)
        (put := fun c => pushBack grow d c) (K' := fun x => .list (xs ++ [x])) hi hd hdh hA hsl rfl hS (he e (by simp)).1 h5 (he e (by simp)).2 h2
        (fun st1 c a1 a2 a3 a4 a5 => hC st1 e c v a1 a2 a3 (hv v (by simp)) a4.live a4.home a4.null a5)
        (fun st2 c a1 a2 a3 _ a5 a6 => run_pushBack a1 grow a2 a3 a5 a6)
      obtain ⟨st', ys, k1, k2, k3, k4, k5⟩ := each_list hC hi hd hdh es vs g2 g3 g4 (fun e' h => he e' (List.mem_cons_of_mem _ h)) (fun v' h => hv v' (List.mem_cons_of_mem _ h)) h6 g5
        (allIs_append (allIs_mono h3 g7) (ws := [deepCopy v]) (ys := [y]) ⟨y, [], rfl, g6, rfl⟩)
      refine ⟨st', ys, ?_, k2, k3, k4, ?_⟩
      · rw [each, bind_ok g1, k1]
      · rw [deepCopyList]; simpa using k5

theorem set_last {α : Type} {m : List (Bytes × α)} {k : Bytes} {x : α} (h : ∀ p ∈ m, keyLt p.1 k = true) : AMap.set m k x = m ++ [(k, x)] ∧ AMap.get m k = none := by
  induction m with
  | nil => exact ⟨rfl, rfl⟩
  | cons p m ih =>
    obtain ⟨k', v⟩ := p
    have h1 := h (k', v) (by simp)
    have e : k' ≠ k := by rintro rfl; rw [keyLt_irrefl] at h1; cases h1
    have h2 : ¬ keyLt k k' = true := by rw [keyLt_asymm h1]; simp
    obtain ⟨h3, h4⟩ := ih fun p hp => h p (List.mem_cons_of_mem _ hp)
    rw [AMap.set, if_neg e, if_neg h2, h3, AMap.get, if_neg e]
    exact ⟨rfl, h4⟩

theorem mapIs_keys {c : Nat → Content} {m : List (Bytes × Val)} {ms : List (Bytes × Slot)} (h : MapIs c m ms) : m.map (·.1) = ms.map (·.1) := by
  induction m generalizing ms with
  | nil => rw [MapIs] at h; rw [h]; rfl
  | cons p m ih =>
    rw [MapIs] at h
    obtain ⟨x, r, rfl, _, h2⟩ := h
    rw [List.map_cons, List.map_cons, ih h2]

theorem mapIs_append {c : Nat → Content} {m w : List (Bytes × Val)} {ms ys : List (Bytes × Slot)} (h : MapIs c m ms) (h2 : MapIs c w ys) : MapIs c (m ++ w) (ms ++ ys) := by
  induction m generalizing ms with
  | nil => rw [MapIs] at h; rw [h]; exact h2
  | cons p m ih =>
    rw [MapIs] at h
    obtain ⟨x, r, rfl, h3, h4⟩ := h
    exact ⟨x, _, rfl, h3, ih h4⟩

theorem each_map {grow : Nat → Nat → Nat} {n : Nat} (hC : CopyDoes grow n) {st : St} {d : Nat} (hi : Inv st) (hd : st.live d) (hdh : (st.obj d).home = none) :
    ∀ (es : List (Bytes × Nat)) (vs : List (Bytes × Val)) {stk : St} {xs : List (Bytes × Slot)} {ws : List (Bytes × Val)}, Apt st stk d → stk.sl d = .map st.nStore →
      stk.liveS st.nStore → (∀ e ∈ es, Value st e.2 ∧ e.2 ≠ d) → AMap.Sorted es → (∀ p ∈ xs, ∀ e ∈ es, keyLt p.1 e.1 = true) → (∀ v ∈ vs, Deep n v.2) →
      MapIs (content st) vs (es.map fun p => (p.1, st.sl p.2)) → content stk st.nStore = .map xs → MapIs (content stk) ws xs →
      ∃ st' ys, each (fun e : Bytes × Nat => withTemp fun c => copyObj grow n e.2 c >>= fun _ => insertCopy e.1 d c) es stk = .ok () st' ∧ Apt st st' d ∧
        st'.sl d = .map st.nStore ∧ content st' st.nStore = .map ys ∧ MapIs (content st') (ws ++ deepCopyMap vs) ys
  | [], vs, stk, xs, ws, hA, hsl, hS, _, _, _, _, h1, h2, h3 => by
    cases vs with
    | nil => exact ⟨stk, xs, rfl, hA, hsl, h2, by rw [deepCopyMap, List.append_nil]; exact h3⟩
    | cons v vs => rw [MapIs] at h1; obtain ⟨_, _, h, _⟩ := h1; cases h
  | (k, e) :: es, vs, stk, xs, ws, hA, hsl, hS, he, hsort, hlt, hv, h1, h2, h3 => by
    cases vs with
    | nil => rw [MapIs] at h1; cases h1
    | cons p vs =>
      obtain ⟨k', v⟩ := p
      rw [MapIs] at h1
      obtain ⟨x, r, h4, h5, h6⟩ := h1
      simp only [List.map_cons, List.cons.injEq, Prod.mk.injEq] at h4
      obtain ⟨⟨rfl, rfl⟩, rfl⟩ := h4
      have hlast := fun x => set_last (x := x) fun p hp => hlt p hp (k, e) (by simp)
      obtain ⟨stk', y, g1, g2, g3, g4, g5, g6, g7⟩ := copy_elem (st := st) (stk := stk) (d := d) (e := e) (v := v) (w := deepCopy v) (f := fun c => copyObj grow n e c)
        (put := fun c => insertCopy k d c) (K' := fun x => .map (AMap.set xs k x)) hi hd hdh hA hsl rfl hS (he (k, e) (by simp)).1 h5 (he (k, e) (by simp)).2 h2
        (fun st1 c a1 a2 a3 a4 a5 => hC st1 e c v a1 a2 a3 (hv (k, v) (by simp)) a4.live a4.home a4.null a5)
        (fun st2 c a1 a2 a3 _ a5 a6 => run_insertCopy a1 a2 a3 a5 (hlast (.null)).2 a6)
      rw [(hlast y).1] at g5
      have hlt' : ∀ p ∈ xs ++ [(k, y)], ∀ q ∈ es, keyLt p.1 q.1 = true := by
        intro p hp q hq
        rcases List.mem_append.1 hp with hp | hp
        · exact hlt p hp q (List.mem_cons_of_mem _ hq)
        · rw [List.mem_singleton.1 hp]; exact hsort.1 q hq
      obtain ⟨st', ys, k1, k2, k3, k4, k5⟩ := each_map hC hi hd hdh es vs g2 g3 g4 (fun e' h => he e' (List.mem_cons_of_mem _ h)) hsort.2 hlt'
        (fun v' h => hv v' (List.mem_cons_of_mem _ h)) h6 g5
        (mapIs_append (mapIs_mono h3 fun p hp u hu => g7 p.2 (List.mem_map.2 ⟨p, hp, rfl⟩) u hu) (w := [(k, deepCopy v)]) (ys := [(k, y)]) ⟨y, [], rfl, g6, rfl⟩)
      refine ⟨st', ys, ?_, k2, k3, k4, ?_⟩
      · rw [each, bind_ok g1, k1]
      · rw [deepCopyMap]; simpa using k5

/-- A null object is given a new, empty storage. -/
theorem init_apt {st : St} (hi : Inv st) {d : Nat} {mk : Nat → Slot} {c : Cell} (hd : st.live d) (hn : st.sl d = .null) (he : c.elems = []) (hc : CellOk c)
    (hmk : ∀ s, (mk s).plain = true ∧ (mk s).sto = some s ∧ Fits (mk s) c) :
    ∃ st', initSlot d mk c st = .ok () st' ∧ Apt st st' d ∧ st'.sl d = mk st.nStore ∧ (st'.store st.nStore).cell = c ∧ st'.liveS st.nStore := by
  obtain ⟨h1, h2⟩ := initSlot_null hi hd hn he hc hmk
  refine ⟨_, h1, ⟨h2.inv, h2.bk, fun y _ e => by simp [St.setSlot, St.setObj, St.newStore, e], fun s hs => ?_, ⟨mk st.nStore, by simp [St.setSlot, St.setObj, St.newStore], (hmk _).1, ?_⟩⟩,
    h2.sl, h2.cell, h2.inv.stoLive d _ h2.live (by rw [h2.sl]; exact (hmk _).2.1)⟩
  · show (st.newStore c).store s = _
    exact newStore_store st c (by have := hi.storeBound s hs; omega)
  · intro s hs
    rw [(hmk _).2.1] at hs
    cases hs; exact Nat.le_refl _

/-- A null object is given contents that own nothing. -/
theorem set_apt {st : St} (hi : Inv st) {d : Nat} {x : Slot} (hd : st.live d) (hdh : (st.obj d).home = none) (hn : st.sl d = .null) (hx : x.plain = true) (hs : x.sto = none) :
    ∃ st', setSlot d x st = .ok () st' ∧ Apt st st' d ∧ st'.sl d = x := by
  have hv : Value st d := ⟨hd, by rw [hn]; rfl⟩
  obtain ⟨h1, h2⟩ := setSlot_null hi hv (by rw [hn]; rfl) (new := x) ⟨hx, fun a h => by rw [hs] at h; cases h⟩
  rcases setSlot_spec hi hv (new := x) ⟨hx, fun a h => by rw [hs] at h; cases h⟩ with ⟨h, _⟩ | ⟨st', h, h3⟩
  · rw [h1] at h; cases h
  rw [h1] at h; cases h
  refine ⟨_, h1, ⟨h2, ⟨h3.fr, fun a b h => .inl ?_⟩, fun y _ e => by simp [St.setSlot, St.setObj, e], fun s _ => rfl, ⟨x, by simp [St.setSlot, St.setObj], hx, fun s h => by rw [hs] at h; cases h⟩⟩,
    h3.sl⟩
  obtain ⟨h4, z, h5, h6⟩ := h
  have hz : z ≠ d := by
    rintro rfl
    have := (h2.elems a z h4 h5).2.2
    rw [setSlot_home, hdh] at this; cases this
  rw [setSlot_sl, if_neg hz] at h6
  exact ⟨h4, z, h5, h6⟩

theorem copies (grow : Nat → Nat → Nat) : ∀ n, CopyDoes grow n
  | 0 => fun _ _ _ _ _ _ _ h => by rw [Deep] at h; exact h.elim
  | n + 1 => by
    intro st t d v hi ht hv hD hd hdh hn htd
    have hC := copies grow n
    rw [copyObj, bind_ok (run_plain ht.1 ht.2)]
    have hp := ht.2
    rw [Is] at hv
    cases hs : st.sl t with
    | ref _ => rw [hs] at hp; cases hp
    | proxy _ _ _ => rw [hs] at hp; cases hp
    | null =>
      rw [hs] at hv
      obtain ⟨st', h1, h2, h3⟩ := set_apt hi hd hdh hn (x := .null) rfl rfl
      refine ⟨st', h1, h2, ?_⟩
      rw [is_null hv, Is, h3]; rfl
    | sca c =>
      rw [hs] at hv
      obtain ⟨st', h1, h2, h3⟩ := set_apt hi hd hdh hn (x := .sca c) rfl rfl
      refine ⟨st', h1, h2, ?_⟩
      rw [is_sca hv, Is, h3]; cases c <;> rfl
    | str s =>
      obtain ⟨g1, b, g2⟩ := cell_str hi.toInv0 ht.1 hs
      rw [hs] at hv
      simp only
      rw [bind_ok (run_load g1), g2]
      obtain ⟨st', h1, h2, h3, h4, _⟩ := init_apt hi hd hn (mk := .str) (c := .str b) rfl trivial (fun s => ⟨rfl, rfl, trivial⟩)
      refine ⟨st', h1, h2, ?_⟩
      rw [is_str hv (b := b) (by rw [content, g2]; rfl), Is, h3]
      exact ⟨_, rfl, by rw [content, h4]; rfl⟩
    | blob s =>
      obtain ⟨g1, b, g2⟩ := cell_blob hi.toInv0 ht.1 hs
      rw [hs] at hv
      simp only
      rw [bind_ok (run_load g1), g2]
      obtain ⟨st', h1, h2, h3, h4, _⟩ := init_apt hi hd hn (mk := .blob) (c := .blob [b.flatten]) rfl trivial (fun s => ⟨rfl, rfl, trivial⟩)
      refine ⟨st', h1, h2, ?_⟩
      rw [is_blob hv (b := b) (by rw [content, g2]; rfl), Is, h3]
      exact ⟨_, rfl, by rw [content, h4]; rfl⟩
    | list s =>
      obtain ⟨g1, cap, es, g2⟩ := cell_list hi.toInv0 ht.1 hs
      rw [hs] at hv
      obtain ⟨vs, rfl, hvs⟩ := is_list hv (xs := es.map st.sl) (by rw [content, g2]; rfl)
      rw [Deep] at hD
      obtain ⟨st0, h1, h2, h3, h4, h5⟩ := init_apt hi hd hn (mk := .list) (c := .list 0 []) rfl trivial (fun s => ⟨rfl, rfl, trivial⟩)
      simp only
      rw [bind_ok h1, bind_ok (run_load (h2.liveS g1)), h2.store s g1, g2]
      simp only
      have hes : ∀ e ∈ es, Value st e ∧ e ≠ d := fun e he => by
        obtain ⟨k1, k2, k3⟩ := hi.elems s e g1 (by rw [St.el, g2]; exact he)
        exact ⟨⟨k1, k2⟩, by rintro rfl; rw [hdh] at k3; cases k3⟩
      obtain ⟨st', ys, k1, k2, k3, k4, k5⟩ := each_list hC hi hd hdh es vs h2 h3 h5 hes hD hvs (xs := []) (ws := []) (by rw [content, h4]; rfl) rfl
      refine ⟨st', k1, k2, ?_⟩
      rw [deepCopy, Is, k3, SlotIs]
      exact ⟨_, ys, rfl, k4, by simpa using k5⟩
    | map s =>
      obtain ⟨g1, m, g2⟩ := cell_map hi.toInv0 ht.1 hs
      rw [hs] at hv
      obtain ⟨vs, rfl, hvs⟩ := is_map hv (xs := m.map fun p => (p.1, st.sl p.2)) (by rw [content, g2]; rfl)
      rw [Deep] at hD
      obtain ⟨st0, h1, h2, h3, h4, h5⟩ := init_apt hi hd hn (mk := .map) (c := .map []) rfl trivial (fun s => ⟨rfl, rfl, trivial⟩)
      simp only
      rw [bind_ok h1, bind_ok (run_load (h2.liveS g1)), h2.store s g1, g2]
      simp only
      have hes : ∀ e ∈ m, Value st e.2 ∧ e.2 ≠ d := fun e he => by
        obtain ⟨k1, k2, k3⟩ := hi.elems s e.2 g1 (by rw [St.el, g2]; exact List.mem_map.2 ⟨e, he, rfl⟩)
        exact ⟨⟨k1, k2⟩, by intro h; rw [h, hdh] at k3; cases k3⟩
      have hsort : AMap.Sorted m := by have := hi.cellOk s g1; rwa [g2] at this
      obtain ⟨st', ys, k1, k2, k3, k4, k5⟩ := each_map hC hi hd hdh m vs h2 h3 h5 hes hsort (fun p hp => by cases hp) hD hvs (xs := []) (ws := []) (by rw [content, h4]; rfl) rfl
      refine ⟨st', k1, k2, ?_⟩
      rw [deepCopy, Is, k3, SlotIs]
      exact ⟨_, ys, rfl, k4, by simpa using k5⟩

/-- `Copy` into a local variable. -/
theorem copyDeep_spec {st : St} (hi : Inv st) (hn : ¬ Cyc st) (grow : Nat → Nat → Nat) {t d : Nat} (ht : Value st t) (hd : st.live d) (hdh : (st.obj d).home = none)
    (hnull : st.sl d = .null) (htd : t ≠ d) : ∃ st', copyDeep grow t d st = .ok () st' ∧ Apt st st' d ∧ ∀ v, Is st t v → Is st' d (deepCopy v) := by
  have hw : ∀ s, (st.sl t).sto = some s → st.liveS s ∧ weight st s < st.nStore + 1 := fun s hs => ⟨hi.stoLive t s ht.1 hs, by have := weight_le st s; omega⟩
  obtain ⟨v, hv⟩ := value_exists hi.toInv0 hn _ t ht fun s hs => (hw s hs).2
  obtain ⟨st', h1, h2, h3⟩ := copies grow (st.nStore + 2) st t d v hi ht hv (deep_weight hi.toInv0 hn _ hv hw) hd hdh hnull htd
  exact ⟨st', h1, h2, fun w hw => by rw [is_unique hw hv]; exact h3⟩

end Verif.Ref
