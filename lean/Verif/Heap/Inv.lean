import Verif.Heap.Model
/-!
# Separation of storage

Variables are split in two sides and cells in two colours.  If slots never point across, then a
program using only one side's variables keeps it that way and leaves the other side's cells and
variables as they are.  New cells get the colour of the side the program uses.
-/

namespace Verif.Heap
open Verif

variable {side color : Nat → Bool} {b : Bool}

/-- A slot points only to existing cells of colour `b`. -/
def SlotOK (color : Nat → Bool) (b : Bool) (n : Nat) (s : Slot) : Prop :=
  ∀ a, s.addr = some a → a < n ∧ color a = b

/-- No slot points across, and new cells will have colour `b`. -/
structure Good (side color : Nat → Bool) (b : Bool) (σ : St) : Prop where
  env : ∀ x, SlotOK color (side x) σ.cells.length (σ.env x)
  cell : ∀ a c, σ.cells[a]? = some c → ∀ s ∈ c.slots, SlotOK color (color a) σ.cells.length s
  fresh : ∀ a, σ.cells.length ≤ a → color a = b

/-- Only cells of colour `b` and variables of side `b` have changed. -/
structure Frame (side color : Nat → Bool) (b : Bool) (σ σ' : St) : Prop where
  len : σ.cells.length ≤ σ'.cells.length
  cells : ∀ a, a < σ.cells.length → color a ≠ b → σ'.cells[a]? = σ.cells[a]?
  env : ∀ y, side y ≠ b → σ'.env y = σ.env y

/-- The result of an operation on side `b`. -/
def Ext (side color : Nat → Bool) (b : Bool) (σ σ' : St) : Prop :=
  Good side color b σ' ∧ Frame side color b σ σ'

theorem Frame.refl (σ : St) : Frame side color b σ σ := ⟨Nat.le_refl _, fun _ _ _ => rfl, fun _ _ => rfl⟩

theorem Frame.trans {σ1 σ2 σ3 : St} (h1 : Frame side color b σ1 σ2) (h2 : Frame side color b σ2 σ3) :
    Frame side color b σ1 σ3 :=
  ⟨Nat.le_trans h1.len h2.len,
   fun a ha hc => (h2.cells a (Nat.lt_of_lt_of_le ha h1.len) hc).trans (h1.cells a ha hc),
   fun y hy => (h2.env y hy).trans (h1.env y hy)⟩

theorem Ext.refl {σ : St} (h : Good side color b σ) : Ext side color b σ σ := ⟨h, Frame.refl σ⟩

theorem Ext.trans {σ1 σ2 σ3 : St} (h1 : Ext side color b σ1 σ2) (h2 : Ext side color b σ2 σ3) :
    Ext side color b σ1 σ3 := ⟨h2.1, h1.2.trans h2.2⟩

theorem SlotOK.mono {n m : Nat} {s : Slot} (h : SlotOK color b n s) (hnm : n ≤ m) :
    SlotOK color b m s := fun a ha => ⟨Nat.lt_of_lt_of_le (h a ha).1 hnm, (h a ha).2⟩

theorem SlotOK.scalar {n : Nat} {s : Slot} (h : s.addr = none) : SlotOK color b n s := by
  intro a ha; rw [h] at ha; cases ha

/-- A location of colour `b`. -/
def LocOK (side color : Nat → Bool) (b : Bool) (n : Nat) : Loc → Prop
  | .var x => side x = b
  | .elem a _ => a < n ∧ color a = b
  | .entry a _ => a < n ∧ color a = b

theorem LocOK.mono {n m : Nat} {l : Loc} (h : LocOK side color b n l) (hnm : n ≤ m) :
    LocOK side color b m l := by
  cases l <;> simp only [LocOK] at * <;> first | exact h | exact ⟨Nat.lt_of_lt_of_le h.1 hnm, h.2⟩

theorem put_ext {σ : St} (h : Good side color b σ) {a : Nat} {c : Cell} (ha : color a = b)
    (hc : ∀ s ∈ c.slots, SlotOK color b σ.cells.length s) : Ext side color b σ (σ.put a c) := by
  refine ⟨⟨?_, ?_, ?_⟩, ⟨?_, ?_, ?_⟩⟩
  · intro x; simpa [St.put] using h.env x
  · intro a' c' h' s hs
    simp only [St.put, List.length_set] at h' ⊢
    rw [List.getElem?_set] at h'
    split at h'
    · next heq =>
      split at h'
      · cases h'; subst heq; rw [ha]; exact hc s hs
      · cases h'
    · exact h.cell a' c' h' s hs
  · simpa [St.put] using h.fresh
  · simp [St.put]
  · intro a' _ hne
    simp only [St.put]
    rw [List.getElem?_set_ne]
    rintro rfl; exact hne ha
  · intro y _; rfl

theorem alloc_ext {σ : St} (h : Good side color b σ) {c : Cell}
    (hc : ∀ s ∈ c.slots, SlotOK color b σ.cells.length s) :
    Ext side color b σ (σ.alloc c).1 ∧ (σ.alloc c).2 < (σ.alloc c).1.cells.length
      ∧ color (σ.alloc c).2 = b ∧ (σ.alloc c).1.cells[(σ.alloc c).2]? = some c := by
  have hl : (σ.alloc c).1.cells.length = σ.cells.length + 1 := by simp [St.alloc]
  refine ⟨⟨⟨?_, ?_, ?_⟩, ⟨?_, ?_, ?_⟩⟩, ?_, ?_, ?_⟩
  · intro x; rw [hl]; exact (h.env x).mono (by omega)
  · intro a' c' h' s hs
    rw [hl]
    simp only [St.alloc] at h'
    by_cases hlt : a' < σ.cells.length
    · rw [List.getElem?_append_left hlt] at h'
      exact (h.cell a' c' h' s hs).mono (by omega)
    · rw [List.getElem?_append_right (by omega)] at h'
      have : a' = σ.cells.length := by
        have := (List.getElem?_eq_some_iff.mp h').1; simp at this; omega
      subst this
      simp at h'; subst h'
      rw [h.fresh _ (Nat.le_refl _)]
      exact (hc s hs).mono (by omega)
  · intro a ha; rw [hl] at ha; exact h.fresh a (by omega)
  · rw [hl]; omega
  · intro a ha _; simp only [St.alloc]; rw [List.getElem?_append_left ha]
  · intro y _; rfl
  · rw [hl]; simp [St.alloc]
  · exact h.fresh _ (Nat.le_refl _)
  · simp [St.alloc]

theorem mem_slots_map {m : List (Bytes × Slot)} {s : Slot} (h : s ∈ (Cell.map m).slots) :
    ∃ k, (k, s) ∈ m := by
  simp only [Cell.slots, List.mem_map] at h
  obtain ⟨⟨k, s'⟩, hm, rfl⟩ := h
  exact ⟨k, hm⟩

theorem slots_map_mem {m : List (Bytes × Slot)} {k : Bytes} {s : Slot} (h : (k, s) ∈ m) :
    s ∈ (Cell.map m).slots := by
  simp only [Cell.slots, List.mem_map]; exact ⟨_, h, rfl⟩

theorem rd_ok {σ : St} (h : Good side color b σ) {l : Loc} {s : Slot}
    (hl : LocOK side color b σ.cells.length l) (hr : σ.rd l = some s) :
    SlotOK color b σ.cells.length s := by
  cases l with
  | var x => simp only [St.rd, Option.some.injEq] at hr; subst hr; have := h.env x; rwa [hl] at this
  | elem a i =>
    simp only [St.rd] at hr
    split at hr
    · next ss hc =>
      have := h.cell a _ hc s (List.mem_of_getElem? hr)
      rwa [hl.2] at this
    · cases hr
  | entry a k =>
    simp only [St.rd] at hr
    split at hr
    · next m hc =>
      have := h.cell a _ hc s (slots_map_mem (AMap.get_mem hr))
      rwa [hl.2] at this
    · cases hr

theorem wr_ext {σ : St} (h : Good side color b σ) {l : Loc} {s : Slot}
    (hl : LocOK side color b σ.cells.length l) (hs : SlotOK color b σ.cells.length s) :
    Ext side color b σ (σ.wr l s) := by
  cases l with
  | var x =>
    simp only [LocOK] at hl
    refine ⟨⟨?_, h.cell, h.fresh⟩, ⟨Nat.le_refl _, fun _ _ _ => rfl, ?_⟩⟩
    · intro y
      simp only [St.wr]
      split
      · next heq => subst heq; rw [hl]; exact hs
      · exact h.env y
    · intro y hy
      simp only [St.wr]
      rw [if_neg]; rintro rfl; exact hy hl
  | elem a i =>
    simp only [St.wr]
    split
    · next ss hc =>
      refine put_ext h hl.2 ?_
      intro t ht
      rcases List.mem_or_eq_of_mem_set ht with h' | rfl
      · have := h.cell a _ hc t h'; rwa [hl.2] at this
      · exact hs
    · exact Ext.refl h
  | entry a k =>
    simp only [St.wr]
    split
    · next m hc =>
      refine put_ext h hl.2 ?_
      intro t ht
      obtain ⟨k', hm⟩ := mem_slots_map ht
      rcases AMap.mem_set hm with h' | h'
      · cases h'; exact hs
      · have := h.cell a _ hc t (slots_map_mem h'); rwa [hl.2] at this
    · exact Ext.refl h

theorem childLoc_ok {σ : St} {s : Slot} {e : PathElem} {l : Loc}
    (hs : SlotOK color b σ.cells.length s) (h : childLoc σ s e = some l) :
    LocOK side color b σ.cells.length l := by
  simp only [childLoc] at h
  split at h
  · next a i =>
    split at h
    · split at h
      · cases h; exact hs a rfl
      · cases h
    · cases h
  · next a k =>
    split at h
    · split at h
      · cases h; exact hs a rfl
      · cases h
    · cases h
  · cases h

theorem cellSetIndex_ext {σ : St} (h : Good side color b σ) {a : Nat} (i : UInt32) {x : Slot}
    (ha : color a = b) (hx : SlotOK color b σ.cells.length x) :
    Ext side color b σ (cellSetIndex σ a i x).1 := by
  simp only [cellSetIndex]
  split
  · next xs hc =>
    have hxs : ∀ s ∈ xs, SlotOK color b σ.cells.length s := by
      intro s hs; have := h.cell a _ hc s hs; rwa [ha] at this
    generalize hys : (if i.toNat < xs.length then xs
      else xs.take (i + 1).toNat ++ List.replicate ((i + 1).toNat - xs.length) .null) = ys
    have hy : ∀ s ∈ ys, SlotOK color b σ.cells.length s := by
      intro s hs
      rw [← hys] at hs
      split at hs
      · exact hxs s hs
      · rcases List.mem_append.mp hs with h' | h'
        · exact hxs s (List.mem_of_mem_take h')
        · rw [(List.mem_replicate.mp h').2]; exact SlotOK.scalar rfl
    split
    · refine put_ext h ha ?_
      intro s hs
      rcases List.mem_or_eq_of_mem_set hs with h' | rfl
      · exact hy s h'
      · exact hx
    · exact put_ext h ha hy
  · exact Ext.refl h

theorem cellSetKey_ext {σ : St} (h : Good side color b σ) {a : Nat} (k : Bytes) {x : Slot}
    (ha : color a = b) (hx : SlotOK color b σ.cells.length x) :
    Ext side color b σ (cellSetKey σ a k x).1 := by
  simp only [cellSetKey]
  split
  · next m hc =>
    refine put_ext h ha ?_
    intro t ht
    obtain ⟨k', hm⟩ := mem_slots_map ht
    rcases AMap.mem_set hm with h' | h'
    · cases h'; exact hx
    · have := h.cell a _ hc t (slots_map_mem h'); rwa [ha] at this
  · exact Ext.refl h

theorem hsetElem_ext {σ : St} (h : Good side color b σ) {l : Loc} (e : PathElem) {x : Slot}
    (hl : LocOK side color b σ.cells.length l) (hx : SlotOK color b σ.cells.length x) :
    Ext side color b σ (hsetElem σ l e x).1 := by
  simp only [hsetElem]
  split
  · next i hr =>
    obtain ⟨hE, h1, h2, _⟩ := alloc_ext h (c := .list []) (by simp [Cell.slots])
    have hE2 := wr_ext hE.1 (s := .list (σ.alloc (.list [])).2) (hl.mono hE.2.len)
      (by intro a ha; cases ha; exact ⟨h1, h2⟩)
    exact hE.trans (hE2.trans (cellSetIndex_ext hE2.1 i h2 (hx.mono (Nat.le_trans hE.2.len hE2.2.len))))
  · next k hr =>
    obtain ⟨hE, h1, h2, _⟩ := alloc_ext h (c := .map []) (by simp [Cell.slots])
    have hE2 := wr_ext hE.1 (s := .map (σ.alloc (.map [])).2) (hl.mono hE.2.len)
      (by intro a ha; cases ha; exact ⟨h1, h2⟩)
    exact hE.trans (hE2.trans (cellSetKey_ext hE2.1 k h2 (hx.mono (Nat.le_trans hE.2.len hE2.2.len))))
  · next a i hr => exact cellSetIndex_ext h i ((rd_ok h hl hr a rfl).2) hx
  · next a k hr => exact cellSetKey_ext h k ((rd_ok h hl hr a rfl).2) hx
  · exact Ext.refl h

theorem bindChild_ok {σ : St} (h : Good side color b σ) {l l' : Loc} {e : PathElem}
    (hl : LocOK side color b σ.cells.length l)
    (hb : (σ.rd l).bind (childLoc σ · e) = some l') : LocOK side color b σ.cells.length l' := by
  simp only [Option.bind_eq_some_iff] at hb
  obtain ⟨s, hs, hc⟩ := hb
  exact childLoc_ok (rd_ok h hl hs) hc

theorem hsetPath_ext {σ : St} (h : Good side color b σ) {l : Loc} (p : VPath) {x : Slot}
    (hl : LocOK side color b σ.cells.length l) (hx : SlotOK color b σ.cells.length x) :
    Ext side color b σ (hsetPath σ l p x).1 := by
  induction p generalizing σ l with
  | nil => exact wr_ext h hl hx
  | cons e q ih =>
    simp only [hsetPath]
    split
    · next l' hb => exact ih h (bindChild_ok h hl hb) hx
    · split
      · exact hsetElem_ext h e hl hx
      · have hE := hsetElem_ext h e (x := .null) hl (SlotOK.scalar rfl)
        split
        · next σ' err heq => rw [heq] at hE; exact hE
        · next σ' heq =>
          rw [heq] at hE
          split
          · next l' hb =>
            exact hE.trans (ih hE.1 (bindChild_ok hE.1 (hl.mono hE.2.len) hb) (hx.mono hE.2.len))
          · exact hE

theorem heraseElem_ext {σ : St} (h : Good side color b σ) {l : Loc} (e : PathElem)
    (hl : LocOK side color b σ.cells.length l) : Ext side color b σ (heraseElem σ l e).1 := by
  simp only [heraseElem]
  split
  · exact Ext.refl h
  · next a i hr =>
    have ha := (rd_ok h hl hr a rfl).2
    split
    · next xs hc =>
      have hxs : ∀ s ∈ xs, SlotOK color b σ.cells.length s := by
        intro s hs; have := h.cell a _ hc s hs; rwa [ha] at this
      split
      · split
        · refine put_ext h ha ?_
          intro s hs
          rcases List.mem_or_eq_of_mem_set hs with h' | rfl
          · exact hxs s h'
          · exact SlotOK.scalar rfl
        · exact Ext.refl h
      · split
        · exact put_ext h ha (fun s hs => hxs s (List.dropLast_subset _ hs))
        · exact Ext.refl h
    · exact Ext.refl h
  · next a k hr =>
    have ha := (rd_ok h hl hr a rfl).2
    split
    · next m hc =>
      refine put_ext h ha ?_
      intro t ht
      obtain ⟨k', hm⟩ := mem_slots_map ht
      have := h.cell a _ hc t (slots_map_mem (AMap.mem_erase hm)); rwa [ha] at this
    · exact Ext.refl h
  · exact Ext.refl h

theorem herasePath_ext {σ : St} (h : Good side color b σ) {l : Loc} (p : VPath) (rm : Bool)
    (hl : LocOK side color b σ.cells.length l) : Ext side color b σ (herasePath σ l p rm).1 := by
  fun_induction herasePath σ l p rm with
  | case1 => exact Ext.refl h
  | case2 => exact heraseElem_ext h _ hl
  | case3 => exact Ext.refl h
  | case4 l e e' q l' hb σ' err heq ih =>
    have := ih (bindChild_ok h hl hb); rw [heq] at this; exact this
  | case5 l e e' q l' hb σ' heq hrm hemp ih =>
    have hE := ih (bindChild_ok h hl hb); rw [heq] at hE
    exact hE.trans (heraseElem_ext hE.1 e (hl.mono hE.2.len))
  | case6 l e e' q l' hb σ' heq hrm hemp ih =>
    have := ih (bindChild_ok h hl hb); rw [heq] at this; exact this
  | case7 l e e' q l' hb σ' heq hrm err hemp ih =>
    have := ih (bindChild_ok h hl hb); rw [heq] at this; exact this
  | case8 l e e' q l' hb σ' heq hrm _ _ _ ih =>
    have := ih (bindChild_ok h hl hb); rw [heq] at this; exact this
  | case9 l e e' q l' hb σ' heq hrm ih =>
    have := ih (bindChild_ok h hl hb); rw [heq] at this; exact this

theorem happend_ext {σ : St} (h : Good side color b σ) {l : Loc} {x : Slot}
    (hl : LocOK side color b σ.cells.length l) (hx : SlotOK color b σ.cells.length x) :
    Ext side color b σ (happend σ l x).1 := by
  simp only [happend]
  split
  · next hr =>
    obtain ⟨hE, h1, h2, _⟩ := alloc_ext h (c := .list [x])
      (by intro s hs; simp only [Cell.slots, List.mem_singleton] at hs; subst hs; exact hx)
    exact hE.trans (wr_ext hE.1 (hl.mono hE.2.len) (by intro a ha; cases ha; exact ⟨h1, h2⟩))
  · next a hr =>
    have ha := (rd_ok h hl hr a rfl).2
    split
    · next ss hc =>
      refine put_ext h ha ?_
      intro s hs
      rcases List.mem_append.mp hs with h' | h'
      · have := h.cell a _ hc s h'; rwa [ha] at this
      · simp only [List.mem_singleton] at h'; subst h'; exact hx
    · exact Ext.refl h
  · exact Ext.refl h

theorem hclear_ext {σ : St} (h : Good side color b σ) {l : Loc}
    (hl : LocOK side color b σ.cells.length l) : Ext side color b σ (hclear σ l) := by
  simp only [hclear]
  split
  · next a hr => exact put_ext h (rd_ok h hl hr a rfl).2 (by simp [Cell.slots])
  · next a hr => exact put_ext h (rd_ok h hl hr a rfl).2 (by simp [Cell.slots])
  · next a hr => exact put_ext h (rd_ok h hl hr a rfl).2 (by simp [Cell.slots])
  · exact wr_ext h hl (SlotOK.scalar rfl)

/-! ## Allocation of whole values and copies: only new cells -/

/-- `cs'` extends `cs` with cells whose slots point to new cells only. -/
def NewCells (cs cs' : List Cell) : Prop :=
  ∃ ext, cs' = cs ++ ext ∧
    ∀ c ∈ ext, ∀ s ∈ c.slots, ∀ a, s.addr = some a → cs.length ≤ a ∧ a < cs'.length

/-- A slot pointing to new cells only. -/
def NewSlot (cs cs' : List Cell) (s : Slot) : Prop :=
  ∀ a, s.addr = some a → cs.length ≤ a ∧ a < cs'.length

theorem NewCells.refl (cs : List Cell) : NewCells cs cs := ⟨[], by simp, by simp⟩

theorem NewCells.len {cs cs' : List Cell} (h : NewCells cs cs') : cs.length ≤ cs'.length := by
  obtain ⟨ext, rfl, _⟩ := h; simp

theorem NewCells.trans {c1 c2 c3 : List Cell} (h1 : NewCells c1 c2) (h2 : NewCells c2 c3) :
    NewCells c1 c3 := by
  have l12 := h1.len
  have l23 := h2.len
  obtain ⟨e1, rfl, p1⟩ := h1
  obtain ⟨e2, rfl, p2⟩ := h2
  refine ⟨e1 ++ e2, by simp, ?_⟩
  intro c hc s hs a ha
  rcases List.mem_append.mp hc with h | h
  · have := p1 c h s hs a ha; omega
  · have := p2 c h s hs a ha; omega

theorem NewSlot.scalar {cs cs' : List Cell} {s : Slot} (h : s.addr = none) : NewSlot cs cs' s := by
  intro a ha; rw [h] at ha; cases ha

theorem NewSlot.weaken {c1 c2 c3 : List Cell} {s : Slot} (h : NewSlot c2 c3 s)
    (h1 : c1.length ≤ c2.length) : NewSlot c1 c3 s := by
  intro a ha; have := h a ha; omega

theorem NewSlot.grow {c1 c2 c3 : List Cell} {s : Slot} (h : NewSlot c1 c2 s)
    (h1 : c2.length ≤ c3.length) : NewSlot c1 c3 s := by
  intro a ha; have := h a ha; omega

theorem NewCells.push {cs cs' : List Cell} (h : NewCells cs cs') (c : Cell)
    (hc : ∀ s ∈ c.slots, NewSlot cs cs' s) : NewCells cs (cs' ++ [c]) := by
  obtain ⟨ext, rfl, p⟩ := h
  refine ⟨ext ++ [c], by simp, ?_⟩
  intro c' hc' s hs a ha
  simp only [List.length_append, List.length_cons, List.length_nil] at *
  rcases List.mem_append.mp hc' with h | h
  · have := p c' h s hs a ha; omega
  · simp only [List.mem_singleton] at h; subst h
    have := hc s hs a ha; simp only [List.length_append] at this; omega

theorem newSlot_last {cs cs' : List Cell} {s : Slot} (h : NewCells cs cs') (c : Cell)
    (hs : s.addr = some cs'.length) : NewSlot cs (cs' ++ [c]) s := by
  intro a ha; rw [hs] at ha; cases ha; have := h.len; simp; omega

mutual
theorem allocVal_new (cs : List Cell) (v : Val) :
    NewCells cs (allocVal cs v).1 ∧ NewSlot cs (allocVal cs v).1 (allocVal cs v).2 := by
  match v with
  | .null | .bool _ | .int _ | .uint _ | .flt _ =>
    simp only [allocVal]; exact ⟨NewCells.refl _, NewSlot.scalar rfl⟩
  | .str s =>
    simp only [allocVal]
    exact ⟨(NewCells.refl cs).push _ (by simp [Cell.slots]), newSlot_last (NewCells.refl cs) _ rfl⟩
  | .blob s =>
    simp only [allocVal]
    exact ⟨(NewCells.refl cs).push _ (by simp [Cell.slots]), newSlot_last (NewCells.refl cs) _ rfl⟩
  | .list xs =>
    have ⟨h1, h2⟩ := allocList_new cs xs
    simp only [allocVal]
    exact ⟨h1.push _ (by simpa [Cell.slots] using h2), newSlot_last h1 _ rfl⟩
  | .map m =>
    have ⟨h1, h2⟩ := allocMap_new cs m
    simp only [allocVal]
    refine ⟨h1.push _ ?_, newSlot_last h1 _ rfl⟩
    intro s hs
    obtain ⟨k, hk⟩ := mem_slots_map hs
    exact h2 _ hk
theorem allocList_new (cs : List Cell) (xs : List Val) :
    NewCells cs (allocList cs xs).1 ∧ ∀ s ∈ (allocList cs xs).2, NewSlot cs (allocList cs xs).1 s := by
  match xs with
  | [] => simp only [allocList]; exact ⟨NewCells.refl _, by simp⟩
  | v :: vs =>
    have ⟨h1, h2⟩ := allocVal_new cs v
    have ⟨h3, h4⟩ := allocList_new (allocVal cs v).1 vs
    simp only [allocList]
    refine ⟨h1.trans h3, ?_⟩
    intro s hs
    rcases List.mem_cons.mp hs with rfl | h
    · exact h2.grow h3.len
    · exact (h4 s h).weaken h1.len
theorem allocMap_new (cs : List Cell) (m : List (Bytes × Val)) :
    NewCells cs (allocMap cs m).1 ∧
      ∀ p ∈ (allocMap cs m).2, NewSlot cs (allocMap cs m).1 p.2 := by
  match m with
  | [] => simp only [allocMap]; exact ⟨NewCells.refl _, by simp⟩
  | (k, v) :: vs =>
    have ⟨h1, h2⟩ := allocVal_new cs v
    have ⟨h3, h4⟩ := allocMap_new (allocVal cs v).1 vs
    simp only [allocMap]
    refine ⟨h1.trans h3, ?_⟩
    intro s hs
    rcases List.mem_cons.mp hs with rfl | h
    · exact h2.grow h3.len
    · exact (h4 s h).weaken h1.len
end

theorem copyAll_new {f : List Cell → Slot → Option (List Cell × Slot)}
    (hf : ∀ cs s cs' s', f cs s = some (cs', s') → NewCells cs cs' ∧ NewSlot cs cs' s') :
    ∀ ss cs cs' ss', copyAll f cs ss = some (cs', ss') →
      NewCells cs cs' ∧ (∀ s ∈ ss', NewSlot cs cs' s) ∧ ss'.length = ss.length := by
  intro ss
  induction ss with
  | nil => intro cs cs' ss' h; simp only [copyAll] at h; cases h; exact ⟨NewCells.refl _, by simp⟩
  | cons s ss ih =>
    intro cs cs' ss' h
    simp only [copyAll] at h
    split at h
    · cases h
    · next cs1 s1 h1 =>
      split at h
      · cases h
      · next cs2 ss2 h2 =>
        cases h
        have ⟨a1, a2⟩ := hf _ _ _ _ h1
        have ⟨b1, b2, b3⟩ := ih _ _ _ h2
        refine ⟨a1.trans b1, ?_, by simp [b3]⟩
        intro t ht
        rcases List.mem_cons.mp ht with rfl | h
        · exact a2.grow b1.len
        · exact (b2 t h).weaken a1.len

theorem hcopy_new (n : Nat) : ∀ cs s cs' s', hcopy n cs s = some (cs', s') →
    NewCells cs cs' ∧ NewSlot cs cs' s' := by
  induction n with
  | zero => intro _ _ _ _ h; simp [hcopy] at h
  | succ n ih =>
    intro cs s cs' s' h
    cases s with
    | null => simp only [hcopy] at h; cases h; exact ⟨NewCells.refl _, NewSlot.scalar rfl⟩
    | bool _ => simp only [hcopy] at h; cases h; exact ⟨NewCells.refl _, NewSlot.scalar rfl⟩
    | int _ => simp only [hcopy] at h; cases h; exact ⟨NewCells.refl _, NewSlot.scalar rfl⟩
    | uint _ => simp only [hcopy] at h; cases h; exact ⟨NewCells.refl _, NewSlot.scalar rfl⟩
    | flt _ => simp only [hcopy] at h; cases h; exact ⟨NewCells.refl _, NewSlot.scalar rfl⟩
    | str a =>
      simp only [hcopy] at h
      split at h
      · cases h
        exact ⟨(NewCells.refl cs).push _ (by simp [Cell.slots]), newSlot_last (NewCells.refl cs) _ rfl⟩
      · cases h
    | blob a =>
      simp only [hcopy] at h
      split at h
      · cases h
        exact ⟨(NewCells.refl cs).push _ (by simp [Cell.slots]), newSlot_last (NewCells.refl cs) _ rfl⟩
      · cases h
    | list a =>
      simp only [hcopy] at h
      split at h
      · split at h
        · cases h
        · next cs1 ss1 h1 =>
          cases h
          have ⟨a1, a2, _⟩ := copyAll_new ih _ _ _ _ h1
          exact ⟨a1.push _ (by simpa [Cell.slots] using a2), newSlot_last a1 _ rfl⟩
      · cases h
    | map a =>
      simp only [hcopy] at h
      split at h
      · split at h
        · cases h
        · next cs1 ss1 h1 =>
          cases h
          have ⟨a1, a2, _⟩ := copyAll_new ih _ _ _ _ h1
          refine ⟨a1.push _ ?_, newSlot_last a1 _ rfl⟩
          intro s hs
          obtain ⟨k, hk⟩ := mem_slots_map hs
          exact a2 s (List.of_mem_zip hk).2
      · cases h

/-- Adding new cells on side `b`. -/
theorem newCells_ext {σ : St} (h : Good side color b σ) {cs' : List Cell}
    (hn : NewCells σ.cells cs') : Ext side color b σ { σ with cells := cs' } := by
  have hlen := hn.len
  obtain ⟨ext, rfl, p⟩ := hn
  refine ⟨⟨?_, ?_, ?_⟩, ⟨hlen, ?_, fun _ _ => rfl⟩⟩
  · intro x; exact (h.env x).mono hlen
  · intro a c hc s hs
    simp only at hc ⊢
    by_cases hlt : a < σ.cells.length
    · rw [List.getElem?_append_left hlt] at hc
      exact (h.cell a c hc s hs).mono hlen
    · rw [List.getElem?_append_right (by omega)] at hc
      rw [h.fresh a (by omega)]
      intro a' ha'
      have := p c (List.mem_of_getElem? hc) s hs a' ha'
      exact ⟨this.2, h.fresh a' this.1⟩
  · intro a ha; exact h.fresh a (by simp only at ha; omega)
  · intro a ha _; simp only; rw [List.getElem?_append_left ha]

theorem newSlot_ok {σ : St} (h : Good side color b σ) {cs' : List Cell} {s : Slot}
    (hn : NewSlot σ.cells cs' s) : SlotOK color b cs'.length s := by
  intro a ha; exact ⟨(hn a ha).2, h.fresh a (hn a ha).1⟩

/-! ## Programs -/

/-- The variables a statement mentions. -/
def Step.vars : Step → List Nat
  | .new x _ => [x]
  | .assign x y => [x, y]
  | .copy x y => [x, y]
  | .get x y _ => [x, y]
  | .setPath x _ y => [x, y]
  | .erasePath x _ _ => [x]
  | .append x _ y => [x, y]
  | .clear x _ => [x]

theorem hget_ok {σ : St} (h : Good side color b σ) {s t : Slot} {p : VPath}
    (hs : SlotOK color b σ.cells.length s) (hg : hget σ s p = some t) :
    SlotOK color b σ.cells.length t := by
  induction p generalizing s with
  | nil => simp only [hget] at hg; cases hg; exact hs
  | cons e p ih =>
    simp only [hget] at hg
    split at hg
    · cases hg
    · next l hl =>
      split at hg
      · cases hg
      · next c hc => exact ih (rd_ok h (childLoc_ok (side := side) hs hl) hc) hg

theorem locOf_ok {σ : St} (h : Good side color b σ) {l l' : Loc} {p : VPath}
    (hl : LocOK side color b σ.cells.length l) (hg : locOf σ l p = some l') :
    LocOK side color b σ.cells.length l' := by
  induction p generalizing l with
  | nil => simp only [locOf] at hg; cases hg; exact hl
  | cons e p ih =>
    simp only [locOf] at hg
    split at hg
    · cases hg
    · next l1 h1 => exact ih (bindChild_ok h hl h1) hg

theorem copyVar_ext {σ σ' : St} (h : Good side color b σ) {x y : Nat} (hx : side x = b)
    (hc : copyVar σ x y = some σ') : Ext side color b σ σ' := by
  simp only [copyVar] at hc
  split at hc
  · cases hc
  · next cs s heq =>
    cases hc
    have ⟨h1, h2⟩ := hcopy_new _ _ _ _ _ heq
    have hE := newCells_ext h h1
    exact hE.trans (wr_ext hE.1 hx (newSlot_ok h h2))

theorem step_ext {σ : St} (h : Good side color b σ) (st : Step) (hv : ∀ x ∈ st.vars, side x = b) :
    Ext side color b σ (step σ st) := by
  cases st with
  | new x v =>
    have ⟨h1, h2⟩ := allocVal_new σ.cells v
    have hE := newCells_ext h h1
    exact hE.trans (wr_ext hE.1 (l := .var x) (hv x (by simp [Step.vars])) (newSlot_ok h h2))
  | assign x y =>
    have hy := h.env y
    rw [hv y (by simp [Step.vars])] at hy
    exact wr_ext h (l := .var x) (hv x (by simp [Step.vars])) hy
  | copy x y =>
    simp only [step]
    cases hc : copyVar σ x y with
    | none => exact Ext.refl h
    | some σ' => exact copyVar_ext h (hv x (by simp [Step.vars])) hc
  | get x y p =>
    have hy := h.env y
    rw [hv y (by simp [Step.vars])] at hy
    simp only [step]
    split
    · next s hs => exact wr_ext h (l := .var x) (hv x (by simp [Step.vars])) (hget_ok h hy hs)
    · exact Ext.refl h
  | setPath x p y =>
    have hy := h.env y
    rw [hv y (by simp [Step.vars])] at hy
    exact hsetPath_ext h p (hv x (by simp [Step.vars])) hy
  | erasePath x p rm => exact herasePath_ext h p rm (hv x (by simp [Step.vars]))
  | append x p y =>
    have hy := h.env y
    rw [hv y (by simp [Step.vars])] at hy
    simp only [step]
    split
    · next l hl =>
      exact happend_ext h (locOf_ok h (l := .var x) (hv x (by simp [Step.vars])) hl) hy
    · exact Ext.refl h
  | clear x p =>
    simp only [step]
    split
    · next l hl =>
      exact hclear_ext h (locOf_ok h (l := .var x) (hv x (by simp [Step.vars])) hl)
    · exact Ext.refl h

theorem run_ext {σ : St} (h : Good side color b σ) (prog : List Step)
    (hv : ∀ st ∈ prog, ∀ x ∈ st.vars, side x = b) : Ext side color b σ (run σ prog) := by
  induction prog generalizing σ with
  | nil => exact Ext.refl h
  | cons st prog ih =>
    have hE := step_ext h st (hv st (by simp))
    exact hE.trans (ih hE.1 (fun s hs => hv s (by simp [hs])))

/-! ## What the other side observes -/

theorem look_frame {σ σ' : St} (hF : Frame side color b σ σ') {c : Bool} (hc : c ≠ b) {s : Slot}
    (hs : SlotOK color c σ.cells.length s) : look σ' s = look σ s := by
  have key : ∀ a, s.addr = some a → σ'.cells[a]? = σ.cells[a]? := by
    intro a ha
    have := hs a ha
    exact hF.cells a this.1 (by rw [this.2]; exact hc)
  cases s <;> simp only [look] <;> rw [key _ rfl]

theorem childLoc_frame {σ σ' : St} (hF : Frame side color b σ σ') {c : Bool} (hc : c ≠ b) {s : Slot}
    (hs : SlotOK color c σ.cells.length s) (e : PathElem) : childLoc σ' s e = childLoc σ s e := by
  have key : ∀ a, s.addr = some a → σ'.cells[a]? = σ.cells[a]? := by
    intro a ha
    have := hs a ha
    exact hF.cells a this.1 (by rw [this.2]; exact hc)
  cases s <;> cases e <;> simp only [childLoc] <;> rw [key _ rfl]

theorem rd_frame {σ σ' : St} (hF : Frame side color b σ σ') {c : Bool} (hc : c ≠ b) {l : Loc}
    (hl : LocOK side color c σ.cells.length l) : σ'.rd l = σ.rd l := by
  cases l with
  | var x => simp only [St.rd]; rw [hF.env x (by rw [hl]; exact hc)]
  | elem a i => simp only [St.rd]; rw [hF.cells a hl.1 (by rw [hl.2]; exact hc)]
  | entry a i => simp only [St.rd]; rw [hF.cells a hl.1 (by rw [hl.2]; exact hc)]

/-- `Good` for the other side, needed to follow paths on it. -/
theorem rd_ok' {σ : St} (h : Good side color b σ) {c : Bool} {l : Loc} {s : Slot}
    (hl : LocOK side color c σ.cells.length l) (hr : σ.rd l = some s) :
    SlotOK color c σ.cells.length s := by
  cases l with
  | var x => simp only [St.rd, Option.some.injEq] at hr; subst hr; have := h.env x; rwa [hl] at this
  | elem a i =>
    simp only [St.rd] at hr
    split at hr
    · next ss hc =>
      have := h.cell a _ hc s (List.mem_of_getElem? hr)
      rwa [hl.2] at this
    · cases hr
  | entry a k =>
    simp only [St.rd] at hr
    split at hr
    · next m hc =>
      have := h.cell a _ hc s (slots_map_mem (AMap.get_mem hr))
      rwa [hl.2] at this
    · cases hr

theorem hget_frame {σ σ' : St} (h : Good side color b σ) (hF : Frame side color b σ σ') {c : Bool}
    (hc : c ≠ b) {s : Slot} (hs : SlotOK color c σ.cells.length s) (p : VPath) :
    (hget σ' s p).bind (look σ') = (hget σ s p).bind (look σ) := by
  induction p generalizing s with
  | nil => simp only [hget, Option.bind_some]; exact look_frame hF hc hs
  | cons e p ih =>
    simp only [hget]
    rw [childLoc_frame hF hc hs]
    cases hl : childLoc σ s e with
    | none => rfl
    | some l =>
      simp only
      have hlo := childLoc_ok (side := side) hs hl
      rw [rd_frame hF hc hlo]
      cases hr : σ.rd l with
      | none => rfl
      | some t => exact ih (rd_ok' h hlo hr)

/-- A program on side `b` changes nothing that can be seen from the other side. -/
theorem obs_frame {σ : St} (h : Good side color b σ) (prog : List Step)
    (hv : ∀ st ∈ prog, ∀ x ∈ st.vars, side x = b) (y : Nat) (hy : side y ≠ b) (p : VPath) :
    obs (run σ prog) y p = obs σ y p := by
  have hE := run_ext h prog hv
  simp only [obs]
  rw [hE.2.env y hy]
  exact hget_frame h hE.2 hy (h.env y) p

/-- All addresses are those of existing cells. -/
def Closed (σ : St) : Prop := Good (fun _ => true) (fun _ => true) true σ

theorem closed_run (prog : List Step) : Closed (run init prog) := by
  have h : Closed init := ⟨fun x => SlotOK.scalar rfl, by simp [init], fun _ _ => rfl⟩
  exact (run_ext h prog (fun _ _ _ _ => rfl)).1

end Verif.Heap
