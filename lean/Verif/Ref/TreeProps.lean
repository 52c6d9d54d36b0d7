import Verif.Ref.TreeOps
/-!
# Operations on references do to the tree what operations on values do (C97)
-/

namespace Verif.Ref
open Verif

/-- The operation ends with the exception of `r`, or normally.  Then `t` is the value of `r`; the variables that were `t` or
references to it still are; variables are still there; and the values of all objects that are still there and are `far` from
`t` are what they were. -/
def Does (grow : Nat → Nat → Nat) (op : Op) (st : St) (t : Nat) (r : Wr) (far : Nat → Prop) : Prop :=
  ∃ st', Ends (step grow op st) .unit r.2 st' ∧ st'.live t ∧ Is st' t r.1 ∧ (∀ x, Names st x t → Names st' x t) ∧
    (∀ z, st.live z → (st.obj z).home = none → st'.live z) ∧
    ∀ z w, st.live z → st'.live z → far z → Is st z w → Is st' z w

theorem Does.intro {grow : Nat → Nat → Nat} {op : Op} {st st' : St} {t : Nat} {r : Wr} (hi : Inv st) (h1 : Ends (step grow op st) .unit r.2 st') (hi' : Inv st') (hf : Fr st st')
    (hl : st'.live t) (hv : Is st' t r.1) (hc : Local st st' t) : Does grow op st t r (Apart st · t) :=
  ⟨st', h1, hl, hv, fun _ hx => hx.fr hi.toInv0 hi'.toInv0 hf hl (SlotIs.plain hv), hf.top, fun _ _ hz hz' ha hw => hc.is hi.toInv0 hi'.toInv0 hz hz' ha hw⟩

theorem Does.wrote {grow : Nat → Nat → Nat} {op : Op} {st st' : St} {t : Nat} {new : Slot} {r : Wr} (hi : Inv st) (h1 : Ends (step grow op st) .unit r.2 st') (h : Wrote st st' t new)
    (hv : Is st' t r.1) : Does grow op st t r (Beside st · t) := by
  refine ⟨st', h1, h.live, hv, fun _ hx => hx.fr hi.toInv0 h.inv.toInv0 h.fr h.live (SlotIs.plain hv), h.fr.top, fun z w hz hz' ha hw => ?_⟩
  have hsl := (h.others z hz' ha.ne).2
  rw [Is, hsl]
  exact is_frame hi.toInv0 h.inv.toInv0 hw (fun a => hi.stoLive z a hz) (fun a hs => h.inv.stoLive z a hz' (by rw [hsl]; exact hs)) fun a s hs hb hs' =>
    h.content hi.toInv0 (hb.alive hi.toInv0 (hi.stoLive z a hz hs)) hs' fun hh => ha.home a s hs hh hb

/-! ## Values are what is read -/

/-- **C97.** As long as no value contains itself, every variable and element has exactly one value. -/
theorem is_exists {grow : Nat → Nat → Nat} {st : St} (h : Runs grow st) (hn : ¬ Cyc st) {x t : Nat} (hx : Names st x t) (ht : st.live t) : ∃ v, Is st t v ∧ ∀ w, Is st t w → w = v := by
  have hi := (runs_ok h).inv
  obtain ⟨v, hv⟩ := value_exists hi.toInv0 hn _ t ⟨ht, hx.plain hi.toInv0 ht⟩ (fun s hs => by
    have : weight st s < ((st.sl t).sto.elim 0 (weight st)) + 1 := by rw [hs]; simp
    exact this)
  exact ⟨v, hv, fun w hw => is_unique hw hv⟩

/-- What is seen of a value. -/
def viewVal : Val → View
  | .null => .null
  | .bool b => .sca (.bool b)
  | .int i => .sca (.int i)
  | .uint u => .sca (.uint u)
  | .flt f => .sca (.flt f)
  | .str b => .str b
  | .list vs => .list vs.length
  | .map m => .map (m.map (·.1))
  | .blob b => .blob b

/-- **C97.** Reading a variable or through a reference gives what the value is. -/
theorem look_is {grow : Nat → Nat → Nat} {st : St} (h : Runs grow st) {x t : Nat} {v : Val} (hx : Names st x t) (ht : st.live t) (hv : Is st t v) :
    step grow (.look x) st = .ok (viewVal v) st := by
  have hi := (runs_ok h).inv
  rw [look_eq hi.toInv0 grow hx ht]
  have : seen st t = viewVal v := by
    rw [Is] at hv
    rw [seen]
    cases hs : st.sl t with
    | null => rw [hs] at hv; rw [is_null hv]; rfl
    | sca c => rw [hs] at hv; rw [is_sca hv]; cases c <;> rfl
    | str s =>
      obtain ⟨_, b, h2⟩ := cell_str hi.toInv0 ht hs
      rw [hs] at hv
      rw [is_str hv (b := b) (by rw [content, h2]; rfl)]
      simp only [h2]; rfl
    | blob s =>
      obtain ⟨_, b, h2⟩ := cell_blob hi.toInv0 ht hs
      rw [hs] at hv
      rw [is_blob hv (b := b) (by rw [content, h2]; rfl)]
      simp only [h2]; rfl
    | list s =>
      obtain ⟨_, cap, es, h2⟩ := cell_list hi.toInv0 ht hs
      rw [hs] at hv
      obtain ⟨vs, rfl, h3⟩ := is_list hv (xs := es.map st.sl) (by rw [content, h2]; rfl)
      simp only [h2, viewVal]
      rw [(allIs_iff.1 h3).1, List.length_map]
    | map s =>
      obtain ⟨_, m, h2⟩ := cell_map hi.toInv0 ht hs
      rw [hs] at hv
      obtain ⟨vs, rfl, h3⟩ := is_map hv (xs := m.map fun p => (p.1, st.sl p.2)) (by rw [content, h2]; rfl)
      simp only [h2, viewVal]
      rw [mapIs_keys h3, List.map_map]; rfl
    | ref _ => rw [hs] at hv; cases hv.plain
    | proxy _ _ _ => rw [hs] at hv; cases hv.plain
  rw [this]

theorem elem_is {st : St} (hi : Inv0 st) {t : Nat} {v : Val} (ht : st.live t) (hv : Is st t v) (e : PathElem) :
    match elem? st t e with
    | some c => ∃ w, getElem? v e = some w ∧ Is st c w
    | none => getElem? v e = none := by
  rw [Is] at hv
  have other : st.sl t ≠ .null → (∀ s, st.sl t ≠ .list s) → (∀ s, st.sl t ≠ .map s) → getElem? v e = none := by
    intro h1 h2 h3
    cases v <;> rw [SlotIs] at hv
    case list => obtain ⟨s, _, h, _⟩ := hv; exact absurd h (h2 s)
    case map => obtain ⟨s, _, h, _⟩ := hv; exact absurd h (h3 s)
    all_goals cases e <;> rfl
  unfold elem?
  cases hs : st.sl t with
  | null => rw [hs] at hv; rw [is_null hv]; cases e <;> rfl
  | list s =>
    obtain ⟨_, cap, es, h2⟩ := cell_list hi ht hs
    rw [hs] at hv
    obtain ⟨vs, rfl, h3⟩ := is_list hv (xs := es.map st.sl) (by rw [content, h2]; rfl)
    cases e with
    | key k => rfl
    | index i =>
      simp only [h2, getElem?, getIndex?]
      cases he : es[i.toNat]? with
      | some c =>
        rcases allIs_get h3 i.toNat with ⟨_, h5⟩ | ⟨w, x, h4, h5, h6⟩
        · rw [List.getElem?_map, he] at h5; cases h5
        · rw [List.getElem?_map, he] at h5
          cases h5
          exact ⟨w, h4, h6⟩
      | none =>
        simp only
        rw [List.getElem?_eq_none_iff] at he ⊢
        rw [(allIs_iff.1 h3).1, List.length_map]; exact he
  | map s =>
    obtain ⟨_, m, h2⟩ := cell_map hi ht hs
    rw [hs] at hv
    obtain ⟨vs, rfl, h3⟩ := is_map hv (xs := m.map fun p => (p.1, st.sl p.2)) (by rw [content, h2]; rfl)
    cases e with
    | index i => rfl
    | key k =>
      simp only [h2, getElem?, getKey?]
      rcases mapIs_get h3 k with ⟨h4, h5⟩ | ⟨w, x, h4, h5, h6⟩
      · rw [get_map_snd, Option.map_eq_none_iff] at h5
        rw [h5]; exact h4
      · rw [get_map_snd, Option.map_eq_some_iff] at h5
        obtain ⟨c, h7, rfl⟩ := h5
        rw [h7]; exact ⟨w, h4, h6⟩
  | _ =>
    have := other (by rw [hs]; simp) (by rw [hs]; simp) (by rw [hs]; simp)
    cases e <;> exact this

/-- **C97.** What a path leads to is what is at that path in the value. -/
theorem path_is {grow : Nat → Nat → Nat} {st : St} (h : Runs grow st) {t : Nat} {v : Val} (ht : st.live t) (hv : Is st t v) (p : VPath) :
    match path? st t p with
    | some c => st.live c ∧ ∃ w, getPath? v p = some w ∧ Is st c w
    | none => getPath? v p = none := by
  have hi := (runs_ok h).inv
  induction p generalizing t v with
  | nil => exact ⟨ht, v, rfl, hv⟩
  | cons e p ih =>
    rw [path?, getPath?]
    have he := elem_is hi.toInv0 ht hv e
    cases hc : elem? st t e with
    | none => rw [hc] at he; simp only [Option.bind_none]; rw [he]
    | some c =>
      rw [hc] at he
      obtain ⟨w, h1, h2⟩ := he
      obtain ⟨s, h3, h4⟩ := elem_mem hi.toInv0 ⟨ht, SlotIs.plain hv⟩ hc
      simp only [Option.bind_some, h1]
      exact ih (hi.elems s c (hi.stoLive t s ht h3) h4).1 h2

/-! ## Writing -/

/-- **C97.** `x = v` for a text, number, blob, … -/
theorem put_is {grow : Nat → Nat → Nat} {st : St} (h : Runs grow st) (hn : ¬ Cyc st) {x t : Nat} (hx : Names st x t) (ht : st.live t) (l : Lit) : Does grow (.put x l) st t (l.val, none) (Beside st · t) := by
  have hi := (runs_ok h).inv
  obtain ⟨o, hxo, _⟩ := id hx
  have ha := hx.about hi.toInv0 hxo
  obtain ⟨st', new, h1, h2, h3⟩ := assignLit_wrote hi hn ⟨ht, hx.plain hi.toInv0 ht⟩ l
  refine .wrote hi (st' := st') ?_ h2 h3
  show _ = _
  rw [step, var, hxo]
  simp only
  rw [bind_ok (by rw [ha.targetCreate hi.toInv0, if_pos ht]), bind_ok h1]; rfl

/-- **C97.** `x = y`, unless `y` contains `x`. -/
theorem assign_is {grow : Nat → Nat → Nat} {st : St} (h : Runs grow st) (hn : ¬ Cyc st) {x y t u : Nat} {w : Val} (hx : Names st x t) (ht : st.live t) (hy : Names st y u) (hu : st.live u)
    (hw : Is st u w) (ho : ∀ s h, (st.sl u).sto = some s → (st.obj t).home = some h → ¬ Below st s h) : Does grow (.assign x y) st t (w, none) (Beside st · t) := by
  have hi := (runs_ok h).inv
  obtain ⟨o, hxo, _⟩ := id hx
  obtain ⟨q, hyq, _⟩ := id hy
  have ha := hx.about hi.toInv0 hxo
  have hb := hy.about hi.toInv0 hyq
  obtain ⟨st', h1, h2⟩ := assign_wrote hi hn grow (q := q) (o := o) (t := t) (u := u) (by rw [hb.target hi.toInv0, if_pos hu])
    (fun hs hih => by
      have ha2 : About { st with holds := hs } o t := ha
      rw [ha2.targetCreate hih, if_pos ht]) ⟨hu, hy.plain hi.toInv0 hu⟩ ⟨ht, hx.plain hi.toInv0 ht⟩
  refine .wrote hi (st' := st') ?_ h2 (h2.is hi.toInv0 hw (fun a => hi.stoLive u a hu) ho)
  show _ = _
  rw [step, var, hxo]
  simp only
  rw [var, hyq]
  simp only
  rw [bind_ok h1]; rfl

/-- **C97.** `x.Erase(e)`. -/
theorem erase_is {grow : Nat → Nat → Nat} {st : St} (h : Runs grow st) (hn : ¬ Cyc st) {x t : Nat} {v : Val} (hx : Names st x t) (ht : st.live t) (hv : Is st t v) (e : PathElem) :
    Does grow (.erase x e) st t (Verif.eraseElem v e) (Apart st · t) := by
  have hi := (runs_ok h).inv
  obtain ⟨o, hxo, _⟩ := id hx
  have ha := hx.about hi.toInv0 hxo
  obtain ⟨st', h1⟩ := erase_did hi hn ⟨ht, hx.plain hi.toInv0 ht⟩ hv e
  refine .intro hi (st' := st') ?_ h1.inv h1.fr h1.live h1.is h1.loc
  rw [step, var, hxo]
  simp only
  rw [bind_ok (by rw [ha.target hi.toInv0, if_pos ht])]
  exact ends_bind h1.ends

/-- **C97.** `x.Clear()`. -/
theorem clear_is {grow : Nat → Nat → Nat} {st : St} (h : Runs grow st) (hn : ¬ Cyc st) {x t : Nat} {v : Val} (hx : Names st x t) (ht : st.live t) (hv : Is st t v) :
    Does grow (.clear x) st t (clearVal v, none) (Apart st · t) := by
  have hi := (runs_ok h).inv
  obtain ⟨o, hxo, _⟩ := id hx
  have ha := hx.about hi.toInv0 hxo
  obtain ⟨st', h1⟩ := clear_did hi hn ⟨ht, hx.plain hi.toInv0 ht⟩ hv
  refine .intro hi (st' := st') ?_ h1.inv h1.fr h1.live h1.is h1.loc
  rw [step, var, hxo]
  simp only
  rw [bind_ok (by rw [ha.target hi.toInv0, if_pos ht])]
  exact ends_bind h1.ends

/-- **C97.** `x.Append(y)`, unless `y` contains `x` or shares its elements. -/
theorem append_is {grow : Nat → Nat → Nat} {st : St} (h : Runs grow st) (hn : ¬ Cyc st) {x y t u : Nat} {v w : Val} (hx : Names st x t) (ht : st.live t) (hv : Is st t v)
    (hy : Names st y u) (hu : st.live u) (hw : Is st u w) (ho : Outside st u t) : Does grow (.append x y) st t (Verif.append v w) (Apart st · t) := by
  have hi := (runs_ok h).inv
  obtain ⟨o, hxo, _⟩ := id hx
  obtain ⟨q, hyq, _⟩ := id hy
  have ha := hx.about hi.toInv0 hxo
  have hb := hy.about hi.toInv0 hyq
  obtain ⟨st2, st3, h1, h2, h3, h4⟩ := append_did hi hn grow hb ⟨hu, hy.plain hi.toInv0 hu⟩ ⟨ht, hx.plain hi.toInv0 ht⟩ hv hw ho
  obtain ⟨k1, k2, k3, k4⟩ := h2.close hi ht ⟨h3.inv, h3.fr⟩ h3.loc h3.is h4
  refine .intro hi ?_ k1 k2 h4 k3 k4
  rw [step, var, hxo]
  simp only
  rw [var, hyq]
  simp only
  rw [withTemp, bind_ok h1, bind_ok (h2.create hi.toInv0 grow ha ht)]
  exact ends_temp (ends_bind h3.ends)

/-- **C97.** `x.Set(e, y)`, unless `y` contains `x` or shares its elements. -/
theorem set_is {grow : Nat → Nat → Nat} {st : St} (h : Runs grow st) (hn : ¬ Cyc st) {x y t u : Nat} {v w : Val} (hx : Names st x t) (ht : st.live t) (hv : Is st t v)
    (hy : Names st y u) (hu : st.live u) (hw : Is st u w) (ho : Outside st u t) (e : PathElem) : Does grow (.set x e y) st t (setElem v e w) (Apart st · t) := by
  have hi := (runs_ok h).inv
  obtain ⟨o, hxo, _⟩ := id hx
  obtain ⟨q, hyq, _⟩ := id hy
  have ha := hx.about hi.toInv0 hxo
  have hb := hy.about hi.toInv0 hyq
  obtain ⟨st2, st3, h1, h2, h3, h4⟩ := set_did hi hn grow hb ⟨hu, hy.plain hi.toInv0 hu⟩ ⟨ht, hx.plain hi.toInv0 ht⟩ hv hw ho e
  obtain ⟨k1, k2, k3, k4⟩ := h2.close hi ht ⟨h3.inv, h3.fr⟩ h3.loc h3.is h4
  refine .intro hi ?_ k1 k2 h4 k3 k4
  rw [step, var, hxo]
  simp only
  rw [var, hyq]
  simp only
  rw [withTemp, bind_ok h1, bind_ok (h2.create hi.toInv0 grow ha ht)]
  rw [bind_bind]
  exact ends_temp (ends_bind h3.ends)

/-! ## The hypotheses are met -/

theorem tidy_below {st : St} (h : Ok st) (ht : st.tidy = true) {a b : Nat} (hb : Below st a b) : a ≤ b := by
  induction hb with
  | refl => exact Nat.le_refl _
  | head h1 _ ih =>
    obtain ⟨h1, e, h2, h3⟩ := h1
    rw [St.tidy, List.all_eq_true] at ht
    have := ht _ (List.mem_range.2 (h.inv.storeBound _ h1))
    rw [List.all_eq_true] at this
    have := this e h2
    rw [h3] at this
    have := of_decide_eq_true this
    omega

/-- A list in `v0`, a map in `v2`, each with one number; `v4` refers to the list. -/
def progTree : List Op := [.var 0, .put 0 .list, .var 1, .put 1 (.sca (.int 7)), .append 0 1, .var 2, .put 2 .map, .set 2 (.key [97]) 1, .mkRef 4 0]

/-- The list, through a reference, and the map that may be put into it; the map is also apart from it. -/
example : ∃ st, Runs double st ∧ ¬ Cyc st ∧ Names st 4 0 ∧ st.live 0 ∧ Is st 0 (.list [.int 7]) ∧ Names st 2 4 ∧ st.live 4 ∧ Is st 4 (.map [([97], .int 7)]) ∧ Outside st 4 0 ∧
    Beside st 4 0 ∧ Apart st 4 0 := by
  obtain ⟨st, h1, h2, h3⟩ := after (grow := double) (ops := progTree) (p := fun st => namesB st 4 0 && (st.obj 0).alive && st.sl 0 == .list 0 && (st.store 0).cell == .list 1 [3] &&
    st.sl 3 == .sca (.int 7) && namesB st 2 4 && (st.obj 4).alive && st.sl 4 == .map 1 && (st.store 1).cell == .map [([97], 6)] && st.sl 6 == .sca (.int 7) &&
    (st.obj 0).home == none && (st.obj 4).home == none && st.tidy) (by decide +kernel)
  simp only [Bool.and_eq_true, beq_iff_eq] at h3
  obtain ⟨⟨⟨⟨⟨⟨⟨⟨⟨⟨⟨⟨a1, a2⟩, a3⟩, a4⟩, a5⟩, a6⟩, a7⟩, a8⟩, a9⟩, a10⟩, a11⟩, a12⟩, a13⟩ := h3
  have ho : Outside st 4 0 := by
    refine ⟨fun s h _ hh => by rw [a11] at hh; simp at hh, fun s h hs hh hb => ?_⟩
    rw [a8] at hs
    rw [a3] at hh
    cases hs
    cases hh
    have := tidy_below (runs_ok h1) a13 hb
    omega
  refine ⟨st, h1, h2, namesB_names a1, a2, ?_, namesB_names a6, a7, ?_, ho, ⟨by decide, ho.home⟩, ⟨ho, by decide, fun s _ => by rw [a12]; simp⟩⟩
  · rw [Is, a3, SlotIs]
    exact ⟨0, [st.sl 3], rfl, by rw [content, a4]; rfl, _, _, rfl, by rw [a5, SlotIs], rfl⟩
  · rw [Is, a8, SlotIs]
    exact ⟨1, [([97], st.sl 6)], rfl, by rw [content, a9]; rfl, _, _, rfl, by rw [a10, SlotIs], rfl⟩

/-! ## What is shared -/

/-- The state after one more operation. -/
def thenB (op : Op) (p : St → Bool) (st : St) : Bool :=
  match step double op st with
  | .ok .unit st' => p st'
  | _ => false

theorem thenB_step {op : Op} {p : St → Bool} {st : St} (h : thenB op p st = true) : ∃ st', step double op st = .ok .unit st' ∧ p st' = true := by
  rw [thenB] at h
  split at h
  · exact ⟨_, by assumption, h⟩
  · cases h

/-- **C97.** The objects must be apart: lists are shared by assignment, and what is appended to one is in the other. -/
theorem list_shared_false : ∃ st st', Runs double st ∧ ¬ Cyc st ∧ Names st 0 0 ∧ Names st 2 2 ∧ Is st 2 (.list []) ∧ step double (.append 0 1) st = .ok .unit st' ∧ Is st' 2 (.list [.int 7]) := by
  obtain ⟨st, h1, h2, h3⟩ := after (grow := double) (ops := [.var 0, .put 0 .list, .var 1, .put 1 (.sca (.int 7)), .var 2, .assign 2 0])
    (p := fun st => namesB st 0 0 && namesB st 2 2 && st.sl 2 == .list 0 && (st.store 0).cell == .list 0 [] &&
      thenB (.append 0 1) (fun st' => st'.sl 2 == .list 0 && (st'.store 0).cell == .list 1 [4] && st'.sl 4 == .sca (.int 7)) st) (by decide +kernel)
  simp only [Bool.and_eq_true, beq_iff_eq] at h3
  obtain ⟨⟨⟨⟨a1, a2⟩, a3⟩, a4⟩, a5⟩ := h3
  obtain ⟨st', b1, b2⟩ := thenB_step a5
  simp only [Bool.and_eq_true, beq_iff_eq] at b2
  refine ⟨st, st', h1, h2, namesB_names a1, namesB_names a2, ?_, b1, ?_⟩
  · rw [Is, a3, SlotIs]
    exact ⟨0, [], rfl, by rw [content, a4]; rfl, rfl⟩
  · rw [Is, b2.1.1, SlotIs]
    exact ⟨0, [st'.sl 4], rfl, by rw [content, b2.1.2]; rfl, _, _, rfl, by rw [b2.2, SlotIs], rfl⟩

/-- **C97.** Texts are shared by assignment as well, although only lists and maps are documented to be (include/Variant/Variant.h
54-56): `Clear` of one clears the other. -/
theorem text_shared_false : ∃ st st', Runs double st ∧ ¬ Cyc st ∧ Names st 0 0 ∧ Names st 1 1 ∧ Is st 1 (.str [97]) ∧ step double (.clear 0) st = .ok .unit st' ∧ Is st' 1 (.str []) := by
  obtain ⟨st, h1, h2, h3⟩ := after (grow := double) (ops := [.var 0, .put 0 (.str [97]), .var 1, .assign 1 0])
    (p := fun st => namesB st 0 0 && namesB st 1 1 && st.sl 1 == .str 0 && (st.store 0).cell == .str [97] &&
      thenB (.clear 0) (fun st' => st'.sl 1 == .str 0 && (st'.store 0).cell == .str []) st) (by decide +kernel)
  simp only [Bool.and_eq_true, beq_iff_eq] at h3
  obtain ⟨⟨⟨⟨a1, a2⟩, a3⟩, a4⟩, a5⟩ := h3
  obtain ⟨st', b1, b2⟩ := thenB_step a5
  simp only [Bool.and_eq_true, beq_iff_eq] at b2
  refine ⟨st, st', h1, h2, namesB_names a1, namesB_names a2, ?_, b1, ?_⟩
  · rw [Is, a3, SlotIs]
    exact ⟨0, rfl, by rw [content, a4]; rfl⟩
  · rw [Is, b2.1, SlotIs]
    exact ⟨0, rfl, by rw [content, b2.2]; rfl⟩

end Verif.Ref
