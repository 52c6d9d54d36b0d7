import Verif.Heap.Props
/-!
# C12 with shared storage: what SetPath stored is what GetPath reads

With shared storage `SetPath(p, x)` followed by `GetPath(p)` returns `x` as long as `p` does not
run through the same container twice, whatever else shares those containers.  In a cyclic value
a path can run through a container twice, and then it can fail.
-/

namespace Verif.Heap
open Verif

/-- The container cell a slot refers to. -/
def Slot.contAddr : Slot → List Nat
  | .list a => [a]
  | .map a => [a]
  | _ => []

/-- The containers a path runs through. -/
def trail (σ : St) (s : Slot) : VPath → List Nat
  | [] => []
  | e :: p => s.contAddr ++ (match (childLoc σ s e).bind σ.rd with
    | some c => trail σ c p
    | none => [])

/-- The container a location is in. -/
def Loc.cell : Loc → List Nat
  | .var _ => []
  | .elem a _ => [a]
  | .entry a _ => [a]

theorem childLoc_spec {σ : St} {s : Slot} {e : PathElem} {l : Loc} (h : childLoc σ s e = some l) :
    l.cell = s.contAddr ∧ (∃ c, σ.rd l = some c) ∧ (∃ a, s.contAddr = [a]) ∧
    (∀ (σ' : St) (c' : Slot), σ'.rd l = some c' → childLoc σ' s e = some l) := by
  simp only [childLoc] at h
  split at h
  · next a i =>
    split at h
    · next ss hc =>
      split at h
      · next hi =>
        cases h
        refine ⟨rfl, ⟨ss[i.toNat], by simp [St.rd, hc, List.getElem?_eq_getElem hi]⟩, ⟨a, rfl⟩, ?_⟩
        intro σ' c' hr
        simp only [St.rd] at hr
        split at hr
        · next ss' hc' => simp [childLoc, hc', (List.getElem?_eq_some_iff.mp hr).1]
        · cases hr
      · cases h
    · cases h
  · next a k =>
    split at h
    · next m hc =>
      split at h
      · next hi =>
        cases h
        obtain ⟨c, hg⟩ := Option.isSome_iff_exists.mp hi
        refine ⟨rfl, ⟨c, by simp [St.rd, hc, hg]⟩, ⟨a, rfl⟩, ?_⟩
        intro σ' c' hr
        simp only [St.rd] at hr
        split at hr
        · next ss' hc' => simp [childLoc, hc', hr]
        · cases hr
      · cases h
    · cases h
  · cases h

theorem put_cells_ne (σ : St) {a b : Nat} (c : Cell) (h : b ≠ a) :
    (σ.put a c).cells[b]? = σ.cells[b]? := by
  simp only [St.put]; rw [List.getElem?_set_ne (Ne.symm h)]

theorem put_len (σ : St) (a : Nat) (c : Cell) : (σ.put a c).cells.length = σ.cells.length := by
  simp [St.put]

theorem wr_len (σ : St) (l : Loc) (s : Slot) : (σ.wr l s).cells.length = σ.cells.length := by
  cases l with
  | var x => rfl
  | elem a i => simp only [St.wr]; split <;> simp [put_len]
  | entry a i => simp only [St.wr]; split <;> simp [put_len]

theorem wr_cells (σ : St) (l : Loc) (s : Slot) {b : Nat} (h : b ∉ l.cell) :
    (σ.wr l s).cells[b]? = σ.cells[b]? := by
  cases l with
  | var x => rfl
  | elem a i =>
    simp only [Loc.cell, List.mem_singleton] at h
    simp only [St.wr]; split
    · exact put_cells_ne _ _ h
    · rfl
  | entry a i =>
    simp only [Loc.cell, List.mem_singleton] at h
    simp only [St.wr]; split
    · exact put_cells_ne _ _ h
    · rfl

theorem cellSetIndex_cells (σ : St) (a : Nat) (i : UInt32) (x : Slot) :
    (cellSetIndex σ a i x).1.cells.length = σ.cells.length ∧
    ∀ b, b ≠ a → (cellSetIndex σ a i x).1.cells[b]? = σ.cells[b]? := by
  simp only [cellSetIndex]
  split
  · split <;> (try split) <;> exact ⟨put_len .., fun b hb => put_cells_ne _ _ hb⟩
  · exact ⟨rfl, fun _ _ => rfl⟩

theorem cellSetKey_cells (σ : St) (a : Nat) (k : Bytes) (x : Slot) :
    (cellSetKey σ a k x).1.cells.length = σ.cells.length ∧
    ∀ b, b ≠ a → (cellSetKey σ a k x).1.cells[b]? = σ.cells[b]? := by
  simp only [cellSetKey]
  split
  · exact ⟨put_len .., fun b hb => put_cells_ne _ _ hb⟩
  · exact ⟨rfl, fun _ _ => rfl⟩

theorem hsetElem_cells {σ : St} {l : Loc} {s : Slot} (hr : σ.rd l = some s) (e : PathElem) (x : Slot) :
    σ.cells.length ≤ (hsetElem σ l e x).1.cells.length ∧
    ∀ b, b < σ.cells.length → b ∉ l.cell → b ∉ s.contAddr →
      (hsetElem σ l e x).1.cells[b]? = σ.cells[b]? := by
  simp only [hsetElem, hr]
  split
  · next i heq =>
    have h := cellSetIndex_cells ((σ.alloc (.list [])).1.wr l (.list (σ.alloc (.list [])).2))
      (σ.alloc (.list [])).2 i x
    constructor
    · rw [h.1, wr_len]; simp [St.alloc]
    · intro b hb hl _
      rw [h.2 b (by simp only [St.alloc]; omega), wr_cells _ _ _ hl]
      simp only [St.alloc]; rw [List.getElem?_append_left hb]
  · next i heq =>
    have h := cellSetKey_cells ((σ.alloc (.map [])).1.wr l (.map (σ.alloc (.map [])).2))
      (σ.alloc (.map [])).2 i x
    constructor
    · rw [h.1, wr_len]; simp [St.alloc]
    · intro b hb hl _
      rw [h.2 b (by simp only [St.alloc]; omega), wr_cells _ _ _ hl]
      simp only [St.alloc]; rw [List.getElem?_append_left hb]
  · next a i heq =>
    cases heq
    have h := cellSetIndex_cells σ a i x
    exact ⟨by rw [h.1]; exact Nat.le_refl _,
      fun b _ _ hs => h.2 b (by simpa [Slot.contAddr] using hs)⟩
  · next a i heq =>
    cases heq
    have h := cellSetKey_cells σ a i x
    exact ⟨by rw [h.1]; exact Nat.le_refl _,
      fun b _ _ hs => h.2 b (by simpa [Slot.contAddr] using hs)⟩
  · exact ⟨Nat.le_refl _, fun _ _ _ _ => rfl⟩

theorem bind_some_eq {σ : St} {l : Loc} {s : Slot} (hr : σ.rd l = some s) (e : PathElem) :
    (σ.rd l).bind (childLoc σ · e) = childLoc σ s e := by rw [hr]; rfl

/-- Reading a location in untouched cells. -/
theorem rd_same {σ σ' : St} {l : Loc} {s : Slot} (hr : σ.rd l = some s)
    (hc : ∀ b ∈ l.cell, σ'.cells[b]? = σ.cells[b]?) (he : ∀ y, l = .var y → σ'.env y = σ.env y) :
    σ'.rd l = some s := by
  cases l with
  | var x => simp only [St.rd] at *; rw [he x rfl]; exact hr
  | elem a i => simp only [St.rd] at *; rw [hc a (by simp [Loc.cell])]; exact hr
  | entry a i => simp only [St.rd] at *; rw [hc a (by simp [Loc.cell])]; exact hr

theorem rd_wr_self {σ : St} {l : Loc} {s : Slot} (hr : σ.rd l = some s) (x : Slot) :
    (σ.wr l x).rd l = some x := by
  cases l with
  | var y => simp [St.rd, St.wr]
  | elem a i =>
    simp only [St.rd] at hr
    split at hr
    · next ss hc =>
      have ha := (List.getElem?_eq_some_iff.mp hc).1
      have hi := (List.getElem?_eq_some_iff.mp hr).1
      simp only [St.wr, hc, St.rd, St.put, List.getElem?_set_self ha, List.getElem?_set_self hi]
    · cases hr
  | entry a k =>
    simp only [St.rd] at hr
    split at hr
    · next ss hc =>
      have ha := (List.getElem?_eq_some_iff.mp hc).1
      simp only [St.wr, hc, St.rd, St.put, List.getElem?_set_self ha, AMap.get_set_self]
    · cases hr

theorem rd_cell_lt {σ : St} {l : Loc} {s : Slot} (hr : σ.rd l = some s) :
    ∀ b ∈ l.cell, b < σ.cells.length := by
  intro b hb
  cases l with
  | var y => simp [Loc.cell] at hb
  | elem a i =>
    simp only [Loc.cell, List.mem_singleton] at hb; subst hb
    simp only [St.rd] at hr
    split at hr
    · next ss hc => exact (List.getElem?_eq_some_iff.mp hc).1
    · cases hr
  | entry a i =>
    simp only [Loc.cell, List.mem_singleton] at hb; subst hb
    simp only [St.rd] at hr
    split at hr
    · next ss hc => exact (List.getElem?_eq_some_iff.mp hc).1
    · cases hr

/-- A successful `SetIndex`/`SetKey` in a cell. -/
theorem cellSetIndex_ok {σ σ' : St} {a : Nat} {i : UInt32} {x : Slot}
    (h : cellSetIndex σ a i x = (σ', none)) :
    childLoc σ' (.list a) (.index i) = some (.elem a i.toNat) ∧ σ'.rd (.elem a i.toNat) = some x := by
  simp only [cellSetIndex] at h
  split at h
  · next xs hc =>
    have ha := (List.getElem?_eq_some_iff.mp hc).1
    generalize (if i.toNat < xs.length then xs
      else xs.take (i + 1).toNat ++ List.replicate ((i + 1).toNat - xs.length) .null) = ys at h
    split at h
    · next hi =>
      cases h
      simp [childLoc, St.rd, St.put, ha, hi]
    · cases h
  · cases h

theorem cellSetKey_ok {σ σ' : St} {a : Nat} {k : Bytes} {x : Slot}
    (h : cellSetKey σ a k x = (σ', none)) :
    childLoc σ' (.map a) (.key k) = some (.entry a k) ∧ σ'.rd (.entry a k) = some x := by
  simp only [cellSetKey] at h
  split at h
  · next xs hc =>
    have ha := (List.getElem?_eq_some_iff.mp hc).1
    cases h
    simp [childLoc, St.rd, St.put, ha, AMap.get_set_self]
  · cases h

theorem hsetElem_ok {σ σ' : St} {l : Loc} {s : Slot} {e : PathElem} {x : Slot} (hr : σ.rd l = some s)
    (hd : ∀ b ∈ l.cell, b ∉ s.contAddr) (h : hsetElem σ l e x = (σ', none)) :
    ∃ s' l', σ'.rd l = some s' ∧ childLoc σ' s' e = some l' ∧ σ'.rd l' = some x
      ∧ (∀ b ∈ l'.cell, b ∈ s.contAddr ∨ σ.cells.length ≤ b) := by
  simp only [hsetElem, hr] at h
  have hlt := rd_cell_lt hr
  have hal : ∀ c, (σ.alloc c).1.rd l = some s := by
    intro c
    refine rd_same hr ?_ (fun _ _ => rfl)
    intro b hb
    simp only [St.alloc]; rw [List.getElem?_append_left (hlt b hb)]
  split at h
  · next i heq =>
    have h2 := cellSetIndex_ok h
    refine ⟨_, _, ?_, h2.1, h2.2, ?_⟩
    · have h3 := rd_wr_self (hal (.list [])) (.list (σ.alloc (.list [])).2)
      have hcs := cellSetIndex_cells ((σ.alloc (.list [])).1.wr l (.list (σ.alloc (.list [])).2))
        (σ.alloc (.list [])).2 i x
      have henv := cellSetIndex_env ((σ.alloc (.list [])).1.wr l (.list (σ.alloc (.list [])).2))
        (σ.alloc (.list [])).2 i x
      rw [h] at hcs henv
      refine rd_same h3 ?_ (fun y _ => by rw [henv])
      intro b hb
      refine hcs.2 b ?_
      have := hlt b hb; simp only [St.alloc]; omega
    · intro b hb
      simp only [Loc.cell, List.mem_singleton, St.alloc] at hb; right; omega
  · next i heq =>
    have h2 := cellSetKey_ok h
    refine ⟨_, _, ?_, h2.1, h2.2, ?_⟩
    · have h3 := rd_wr_self (hal (.map [])) (.map (σ.alloc (.map [])).2)
      have hcs := cellSetKey_cells ((σ.alloc (.map [])).1.wr l (.map (σ.alloc (.map [])).2))
        (σ.alloc (.map [])).2 i x
      have henv := cellSetKey_env ((σ.alloc (.map [])).1.wr l (.map (σ.alloc (.map [])).2))
        (σ.alloc (.map [])).2 i x
      rw [h] at hcs henv
      refine rd_same h3 ?_ (fun y _ => by rw [henv])
      intro b hb
      refine hcs.2 b ?_
      have := hlt b hb; simp only [St.alloc]; omega
    · intro b hb
      simp only [Loc.cell, List.mem_singleton, St.alloc] at hb; right; omega
  · next a i heq =>
    cases heq
    have h2 := cellSetIndex_ok h
    refine ⟨_, _, ?_, h2.1, h2.2, fun b hb => Or.inl hb⟩
    have hcs := cellSetIndex_cells σ a i x
    have henv := cellSetIndex_env σ a i x
    rw [h] at hcs henv
    exact rd_same hr (fun b hb => hcs.2 b (by have := hd b hb; simpa [Slot.contAddr] using this))
      (fun y _ => by rw [henv])
  · next a i heq =>
    cases heq
    have h2 := cellSetKey_ok h
    refine ⟨_, _, ?_, h2.1, h2.2, fun b hb => Or.inl hb⟩
    have hcs := cellSetKey_cells σ a i x
    have henv := cellSetKey_env σ a i x
    rw [h] at hcs henv
    exact rd_same hr (fun b hb => hcs.2 b (by have := hd b hb; simpa [Slot.contAddr] using this))
      (fun y _ => by rw [henv])
  · cases h

/-- A successful `SetPath` along containers that are all different: it changes only those (and the
location it starts from), and what it stored is read back. -/
theorem hsetPath_ok {σ σ' : St} {l : Loc} {s : Slot} (hr : σ.rd l = some s) (p : VPath) (x : Slot)
    (hnd : (l.cell ++ trail σ s p).Nodup) (h : hsetPath σ l p x = (σ', none)) :
    σ.cells.length ≤ σ'.cells.length ∧
    (∀ b, b < σ.cells.length → b ∉ l.cell → b ∉ trail σ s p → σ'.cells[b]? = σ.cells[b]?) ∧
    ∃ s', σ'.rd l = some s' ∧ hget σ' s' p = some x := by
  induction p generalizing σ l s with
  | nil =>
    simp only [hsetPath] at h
    cases h
    exact ⟨by rw [wr_len]; exact Nat.le_refl _, fun b _ hb _ => wr_cells _ _ _ hb,
      x, rd_wr_self hr x, rfl⟩
  | cons e q ih =>
    simp only [hsetPath, bind_some_eq hr] at h
    cases hch : childLoc σ s e with
    | some l' =>
      rw [hch] at h
      simp only at h
      obtain ⟨h1, ⟨c, hc⟩, _, h4⟩ := childLoc_spec hch
      have ht : trail σ s (e :: q) = l'.cell ++ trail σ c q := by
        simp only [trail, hch, Option.bind_some, hc, h1]
      rw [ht] at hnd ⊢
      have hnd' := (List.nodup_append.mp hnd).2.1
      have hdis := (List.nodup_append.mp hnd).2.2
      obtain ⟨a1, a2, c', a3, a4⟩ := ih hc hnd' h
      refine ⟨a1, ?_, ?_⟩
      · intro b hb _ hbt
        simp only [List.mem_append, not_or] at hbt
        exact a2 b hb hbt.1 hbt.2
      · have hl : σ'.rd l = some s := by
          refine rd_same hr ?_ ?_
          · intro b hb
            have hn : b ∉ l'.cell ++ trail σ c q := fun hm => hdis b hb b hm rfl
            simp only [List.mem_append, not_or] at hn
            exact a2 b (rd_cell_lt hr b hb) hn.1 hn.2
          · intro y hy
            have : l' ≠ .var y := fun hh => childLoc_ne_var (hch.trans (by rw [hh]))
            have he := hsetPath_env_other (σ := σ) q x this
            rw [h] at he; exact he
        refine ⟨s, hl, ?_⟩
        simp only [hget, h4 σ' c' a3, a3, a4]
    | none =>
      rw [hch] at h
      simp only at h
      have hdis : ∀ b ∈ l.cell, b ∉ s.contAddr := by
        intro b hb hs
        refine (List.nodup_append.mp hnd).2.2 b hb b ?_ rfl
        simp [trail, hs]
      have hfr : ∀ b, b ∉ trail σ s (e :: q) → b ∉ s.contAddr := by
        intro b hb hs; exact hb (by simp [trail, hs])
      by_cases hq : q = []
      · subst hq
        simp only [if_true] at h
        have hc := hsetElem_cells hr e x
        rw [h] at hc
        obtain ⟨s', l', b1, b2, b3, _⟩ := hsetElem_ok hr hdis h
        exact ⟨hc.1, fun b hb hl ht => hc.2 b hb hl (hfr b ht), s', b1, by simp only [hget, b2, b3]⟩
      · simp only [hq, if_false] at h
        have hc := hsetElem_cells hr e .null
        split at h
        · cases h
        · next σ1 heq =>
          rw [heq] at hc
          obtain ⟨s1, l1, b1, b2, b3, b4⟩ := hsetElem_ok hr hdis heq
          rw [bind_some_eq b1, b2] at h
          simp only at h
          obtain ⟨c1, _, ⟨a, ha⟩, c4⟩ := childLoc_spec b2
          have htr : trail σ1 Slot.null q = [] := by
            cases q with
            | nil => rfl
            | cons e' q => simp [trail, Slot.contAddr, childLoc]
          obtain ⟨d1, d2, c', d3, d4⟩ := ih b3 (by rw [htr, c1, ha]; simp) h
          have hout : ∀ b, b < σ.cells.length → b ∉ s.contAddr → b ∉ l1.cell := by
            intro b hb hs hm
            rcases b4 b hm with h' | h'
            · exact hs h'
            · omega
          refine ⟨Nat.le_trans hc.1 d1, ?_, s1, ?_, ?_⟩
          · intro b hb hl ht
            rw [d2 b (Nat.lt_of_lt_of_le hb hc.1) (hout b hb (hfr b ht)) (by rw [htr]; simp)]
            exact hc.2 b hb hl (hfr b ht)
          · refine rd_same b1 ?_ ?_
            · intro b hb
              have hlt := rd_cell_lt hr b hb
              exact d2 b (Nat.lt_of_lt_of_le hlt hc.1) (hout b hlt (hdis b hb)) (by rw [htr]; simp)
            · intro y hy
              have : l1 ≠ .var y := fun hh => childLoc_ne_var (b2.trans (by rw [hh]))
              have he := hsetPath_env_other (σ := σ1) q x this
              rw [h] at he; exact he
          · simp only [hget, c4 σ' c' d3, d3, d4]

/-- **C12 with sharing.** In any state a program can reach: if `w.SetPath(p, x)` succeeds and `p`
runs through no container of `w` twice, `w` then shows at `p` and below what `x` shows. -/
theorem setPath_reads_back (history : List Step) (w x : Nat) (p : VPath) (σ' : St)
    (hnd : (trail (run init history) ((run init history).env w) p).Nodup)
    (h : hsetPath (run init history) (.var w) p ((run init history).env x) = (σ', none)) :
    hget σ' (σ'.env w) p = some ((run init history).env x) ∧
    ∀ q, obs σ' w (p ++ q) = see σ'.cells ((run init history).env x) q := by
  obtain ⟨_, _, s', h1, h2⟩ := hsetPath_ok (σ := run init history) (l := .var w) rfl p
    ((run init history).env x) (by simpa [Loc.cell] using hnd) h
  simp only [St.rd, Option.some.injEq] at h1
  rw [h1]
  refine ⟨h2, ?_⟩
  intro q
  have key : ∀ (p : VPath) (s t : Slot), hget σ' s p = some t → hget σ' s (p ++ q) = hget σ' t q := by
    intro p
    induction p with
    | nil => intro s t hh; simp only [hget] at hh; cases hh; rfl
    | cons e p ih =>
      intro s t hh
      simp only [hget, List.cons_append] at hh ⊢
      split at hh
      · cases hh
      · split at hh
        · cases hh
        · next c hc => exact ih c t hh
  rw [← see_eq, obs, h1, key p s' _ h2]

/-- The restriction is needed: `v = []; v.Append(v)` (a list containing itself), then
`v.SetPath([0, 0], 7)` succeeds but `v.GetPath([0, 0])` does not exist. -/
theorem setPath_cyclic_false :
    ∃ history w x p σ',
      hsetPath (run init history) (.var w) p ((run init history).env x) = (σ', none) ∧
      obs (run init history) x [] = some (.int 7) ∧ obs σ' w p = none := by
  refine ⟨[.new 0 (.list []), .append 0 [] 0, .new 1 (.int 7)], 0, 1, [.index 0, .index 0], _, rfl, ?_, ?_⟩
    <;> decide +kernel

example :
    (trail (run init demo) ((run init demo).env 0) [.key [97], .index 5, .key [98]]).Nodup ∧
    (hsetPath (run init demo) (.var 0) [.key [97], .index 5, .key [98]] ((run init demo).env 2)).2 = none := by
  decide +kernel

end Verif.Heap
