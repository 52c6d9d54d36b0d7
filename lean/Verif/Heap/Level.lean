import Verif.Heap.ReadBack
import Verif.Ref.Tree
/-!
# Shared storage and trees, one container at a time

What a modification does to the container it is called on is what Val/Ops says of a tree, whatever the
elements stand for.  `view f` shows a container as a tree whose elements are given by `f`.
-/

namespace Verif.Heap
open Verif

/-- A slot and the cell it refers to as a tree; `f` says what the elements of a container stand for. -/
def view (f : Slot → Val) (σ : St) : Slot → Option Val
  | .null => some .null
  | .bool b => some (.bool b)
  | .int i => some (.int i)
  | .uint u => some (.uint u)
  | .flt b => some (.flt b)
  | .str a => match σ.cells[a]? with
    | some (.str s) => some (.str s)
    | _ => none
  | .list a => match σ.cells[a]? with
    | some (.list ss) => some (.list (ss.map f))
    | _ => none
  | .map a => match σ.cells[a]? with
    | some (.map m) => some (.map (m.map fun kv => (kv.1, f kv.2)))
    | _ => none
  | .blob a => match σ.cells[a]? with
    | some (.blob segs) => some (.blob segs)
    | _ => none

/-- What is at `l`, as a tree. -/
def viewAt (f : Slot → Val) (σ : St) (l : Loc) : Option Val := (σ.rd l).bind (view f σ)

/-- The slot at `l` does not refer to the container `l` is in. -/
def Apart (σ : St) (l : Loc) : Prop := ∀ s a, σ.rd l = some s → s.addr = some a → a ∉ l.cell

theorem rd_put {σ : St} {l : Loc} {a : Nat} (c : Cell) (h : a ∉ l.cell) : (σ.put a c).rd l = σ.rd l := by
  cases l with
  | var x => rfl
  | elem b i =>
    have : a ≠ b := by simpa [Loc.cell] using h
    simp [St.rd, St.put, List.getElem?_set, this]
  | entry b k =>
    have : a ≠ b := by simpa [Loc.cell] using h
    simp [St.rd, St.put, List.getElem?_set, this]

theorem cells_put {σ : St} {a : Nat} {c c' : Cell} (h : σ.cells[a]? = some c') : (σ.put a c).cells[a]? = some c := by
  obtain ⟨h1, _⟩ := List.getElem?_eq_some_iff.mp h
  simp [St.put, h1]

theorem viewAt_list {f : Slot → Val} {σ : St} {l : Loc} {a : Nat} {ss ss' : List Slot} (hr : σ.rd l = some (.list a))
    (hc : σ.cells[a]? = some (.list ss)) (ha : Apart σ l) : viewAt f (σ.put a (.list ss')) l = some (.list (ss'.map f)) := by
  rw [viewAt, rd_put _ (ha _ a hr rfl), hr]
  simp [view, cells_put hc]

theorem viewAt_map {f : Slot → Val} {σ : St} {l : Loc} {a : Nat} {m m' : List (Bytes × Slot)} (hr : σ.rd l = some (.map a))
    (hc : σ.cells[a]? = some (.map m)) (ha : Apart σ l) : viewAt f (σ.put a (.map m')) l = some (.map (m'.map fun kv => (kv.1, f kv.2))) := by
  rw [viewAt, rd_put _ (ha _ a hr rfl), hr]
  simp [view, cells_put hc]

theorem view_list {f : Slot → Val} {σ : St} {l : Loc} {v : Val} {a : Nat} (hr : σ.rd l = some (.list a)) (hv : viewAt f σ l = some v) :
    ∃ ss, σ.cells[a]? = some (.list ss) ∧ v = .list (ss.map f) := by
  rw [viewAt, hr] at hv
  simp only [Option.bind_some, view] at hv
  split at hv
  · next ss h => exact ⟨ss, h, by cases hv; rfl⟩
  · cases hv

theorem view_map {f : Slot → Val} {σ : St} {l : Loc} {v : Val} {a : Nat} (hr : σ.rd l = some (.map a)) (hv : viewAt f σ l = some v) :
    ∃ m, σ.cells[a]? = some (.map m) ∧ v = .map (m.map fun kv => (kv.1, f kv.2)) := by
  rw [viewAt, hr] at hv
  simp only [Option.bind_some, view] at hv
  split at hv
  · next ss h => exact ⟨ss, h, by cases hv; rfl⟩
  · cases hv

/-- Not a container or null. -/
theorem view_other {f : Slot → Val} {σ : St} {l : Loc} {v : Val} {s : Slot} (hr : σ.rd l = some s) (hv : viewAt f σ l = some v)
    (h0 : s ≠ .null) (h1 : ∀ a, s ≠ .list a) (h2 : ∀ a, s ≠ .map a) : v ≠ .null ∧ (∀ xs, v ≠ .list xs) ∧ ∀ m, v ≠ .map m := by
  rw [viewAt, hr] at hv
  cases s with
  | null => exact absurd rfl h0
  | list a => exact absurd rfl (h1 a)
  | map a => exact absurd rfl (h2 a)
  | str a =>
    simp only [Option.bind_some, view] at hv
    split at hv <;> cases hv
    exact ⟨nofun, nofun, nofun⟩
  | blob a =>
    simp only [Option.bind_some, view] at hv
    split at hv <;> cases hv
    exact ⟨nofun, nofun, nofun⟩
  | _ => cases hv; exact ⟨nofun, nofun, nofun⟩

theorem view_null {f : Slot → Val} {σ : St} {l : Loc} {v : Val} (hr : σ.rd l = some .null) (hv : viewAt f σ l = some v) : v = .null := by
  rw [viewAt, hr] at hv
  cases hv
  rfl

/-- Erasing an element erases it from the tree. -/
theorem erase_level (f : Slot → Val) (hf : f .null = .null) (σ : St) (l : Loc) (e : PathElem) (v : Val) (hv : viewAt f σ l = some v)
    (ha : Apart σ l) : viewAt f (heraseElem σ l e).1 l = some (Verif.eraseElem v e).1 ∧ (heraseElem σ l e).2 = (Verif.eraseElem v e).2 := by
  obtain ⟨s, hs⟩ : ∃ s, σ.rd l = some s := by
    cases h : σ.rd l with
    | none => rw [viewAt, h] at hv; cases hv
    | some s => exact ⟨s, rfl⟩
  by_cases h0 : s = .null
  · subst h0
    have := view_null hs hv
    subst this
    cases e <;> simp [heraseElem, hs, Verif.eraseElem, eraseKey, eraseIndex, hv]
  by_cases h1 : ∃ a, s = .list a
  · obtain ⟨a, rfl⟩ := h1
    obtain ⟨ss, hc, rfl⟩ := view_list hs hv
    cases e with
    | key k => simp [heraseElem, hs, Verif.eraseElem, eraseKey, hv]
    | index i =>
      simp only [heraseElem, hs, hc, Verif.eraseElem, eraseIndex, List.length_map]
      split
      · split
        · refine ⟨?_, rfl⟩
          rw [viewAt_list hs hc ha, List.map_set, hf]
        · exact ⟨hv, rfl⟩
      · split
        · refine ⟨?_, rfl⟩
          rw [viewAt_list hs hc ha, List.map_dropLast]
        · exact ⟨hv, rfl⟩
  by_cases h2 : ∃ a, s = .map a
  · obtain ⟨a, rfl⟩ := h2
    obtain ⟨m, hc, rfl⟩ := view_map hs hv
    cases e with
    | index i => simp [heraseElem, hs, Verif.eraseElem, eraseIndex, hv]
    | key k =>
      simp only [heraseElem, hs, hc, Verif.eraseElem, eraseKey]
      refine ⟨?_, trivial⟩
      rw [viewAt_map hs hc ha, Ref.erase_map_snd]
  · obtain ⟨g0, g1, g2⟩ := view_other hs hv h0 (fun a h => h1 ⟨a, h⟩) (fun a h => h2 ⟨a, h⟩)
    have e1 : heraseElem σ l e = (σ, some .unexpectedType) := by
      cases s <;> simp_all [heraseElem]
    have e2 : Verif.eraseElem v e = (v, some .unexpectedType) := by
      cases e <;> cases v <;> simp_all [Verif.eraseElem, eraseKey, eraseIndex]
    rw [e1, e2]
    exact ⟨hv, rfl⟩

theorem rd_alloc {σ : St} {l : Loc} {s : Slot} (c : Cell) (h : σ.rd l = some s) : (σ.alloc c).1.rd l = some s := by
  cases l with
  | var x => exact h
  | elem b i =>
    simp only [St.rd, St.alloc] at h ⊢
    split at h
    · next ss hc => rw [List.getElem?_append_left (List.getElem?_eq_some_iff.mp hc).1, hc]; exact h
    · cases h
  | entry b k =>
    simp only [St.rd, St.alloc] at h ⊢
    split at h
    · next ss hc => rw [List.getElem?_append_left (List.getElem?_eq_some_iff.mp hc).1, hc]; exact h
    · cases h

theorem rd_wr {σ : St} {l : Loc} {s : Slot} (t : Slot) (h : σ.rd l = some s) : (σ.wr l t).rd l = some t := by
  cases l with
  | var x => simp [St.rd, St.wr]
  | elem b i =>
    simp only [St.rd] at h
    split at h
    · next ss hc =>
      obtain ⟨h1, _⟩ := List.getElem?_eq_some_iff.mp hc
      obtain ⟨h2, _⟩ := List.getElem?_eq_some_iff.mp h
      have e : σ.wr (.elem b i) t = σ.put b (.list (ss.set i t)) := by simp only [St.wr, hc]
      rw [e]
      simp [St.rd, St.put, h1, h2]
    · cases h
  | entry b k =>
    simp only [St.rd] at h
    split at h
    · next ss hc =>
      obtain ⟨h1, _⟩ := List.getElem?_eq_some_iff.mp hc
      have e : σ.wr (.entry b k) t = σ.put b (.map (AMap.set ss k t)) := by simp only [St.wr, hc]
      rw [e]
      simp [St.rd, St.put, h1, AMap.get_set_self]
    · cases h

/-- Null made a new container: where it is, and that it lies apart. -/
theorem fresh {σ : St} {l : Loc} (c : Cell) (t : Slot) (h : σ.rd l = some .null) (ht : t.addr = some σ.cells.length) :
    ((σ.alloc c).1.wr l t).rd l = some t ∧ ((σ.alloc c).1.wr l t).cells[σ.cells.length]? = some c ∧ Apart ((σ.alloc c).1.wr l t) l := by
  have hr := rd_wr t (rd_alloc c h)
  have hl : ∀ a ∈ l.cell, a < σ.cells.length := by
    intro a ha
    cases l with
    | var x => cases ha
    | elem b i =>
      simp only [Loc.cell, List.mem_singleton] at ha
      subst ha
      simp only [St.rd] at h
      split at h
      · next hc => exact (List.getElem?_eq_some_iff.mp hc).1
      · cases h
    | entry b k =>
      simp only [Loc.cell, List.mem_singleton] at ha
      subst ha
      simp only [St.rd] at h
      split at h
      · next hc => exact (List.getElem?_eq_some_iff.mp hc).1
      · cases h
  refine ⟨hr, ?_, ?_⟩
  · cases l with
    | var x => simp [St.wr, St.alloc]
    | elem b i =>
      have hb := hl b (by simp [Loc.cell])
      simp only [St.wr]
      split
      · simp only [St.put, St.alloc]
        rw [List.getElem?_set_ne (by omega)]
        simp
      · simp [St.alloc]
    | entry b k =>
      have hb := hl b (by simp [Loc.cell])
      simp only [St.wr]
      split
      · simp only [St.put, St.alloc]
        rw [List.getElem?_set_ne (by omega)]
        simp
      · simp [St.alloc]
  · intro s a hs ha hm
    rw [hr] at hs
    cases hs
    rw [ht] at ha
    cases ha
    exact Nat.lt_irrefl _ (hl _ hm)

theorem setIndex_level {f : Slot → Val} (hf : f .null = .null) {σ : St} {l : Loc} {a : Nat} {ss : List Slot} (i : UInt32) (x : Slot)
    (hs : σ.rd l = some (.list a)) (hc : σ.cells[a]? = some (.list ss)) (ha : Apart σ l) :
    viewAt f (cellSetIndex σ a i x).1 l = some (setIndexList (ss.map f) i (f x)).1 ∧
    (cellSetIndex σ a i x).2 = (setIndexList (ss.map f) i (f x)).2 := by
  simp only [cellSetIndex, hc, setIndexList]
  have he : (if i.toNat < (ss.map f).length then ss.map f else
      (ss.map f).take (i + 1).toNat ++ List.replicate ((i + 1).toNat - (ss.map f).length) .null) =
      (if i.toNat < ss.length then ss else ss.take (i + 1).toNat ++ List.replicate ((i + 1).toNat - ss.length) .null).map f := by
    rw [List.length_map]
    split
    · rfl
    · rw [List.map_append, List.map_replicate, hf, List.map_take]
  rw [he, List.length_map]
  generalize (if i.toNat < ss.length then ss else ss.take (i + 1).toNat ++ List.replicate ((i + 1).toNat - ss.length) .null) = ys
  split
  · refine ⟨?_, rfl⟩
    rw [viewAt_list hs hc ha, List.map_set]
  · exact ⟨viewAt_list hs hc ha, rfl⟩

/-- Setting an element sets it in the tree; null becomes a container. -/
theorem set_level (f : Slot → Val) (hf : f .null = .null) (σ : St) (l : Loc) (e : PathElem) (x : Slot) (v : Val) (hv : viewAt f σ l = some v)
    (ha : Apart σ l) : viewAt f (hsetElem σ l e x).1 l = some (Verif.setElem v e (f x)).1 ∧ (hsetElem σ l e x).2 = (Verif.setElem v e (f x)).2 := by
  obtain ⟨s, hs⟩ : ∃ s, σ.rd l = some s := by
    cases h : σ.rd l with
    | none => rw [viewAt, h] at hv; cases hv
    | some s => exact ⟨s, rfl⟩
  by_cases h0 : s = .null
  · subst h0
    have := view_null hs hv
    subst this
    cases e with
    | index i =>
      obtain ⟨f1, f2, f3⟩ := fresh (.list []) (.list σ.cells.length) hs rfl
      have := setIndex_level hf i x f1 f2 f3
      simp only [hsetElem, hs, Verif.setElem, setIndex]
      exact this
    | key k =>
      obtain ⟨f1, f2, f3⟩ := fresh (.map []) (.map σ.cells.length) hs rfl
      simp only [hsetElem, hs, Verif.setElem, setKey]
      have e1 : cellSetKey ((σ.alloc (.map [])).1.wr l (.map σ.cells.length)) σ.cells.length k x =
          (((σ.alloc (.map [])).1.wr l (.map σ.cells.length)).put σ.cells.length (.map [(k, x)]), none) := by
        rw [cellSetKey, f2]
        rfl
      show viewAt f (cellSetKey ((σ.alloc (.map [])).1.wr l (.map σ.cells.length)) σ.cells.length k x).1 l = _ ∧
        (cellSetKey ((σ.alloc (.map [])).1.wr l (.map σ.cells.length)) σ.cells.length k x).2 = _
      rw [e1]
      exact ⟨viewAt_map f1 f2 f3, rfl⟩
  by_cases h1 : ∃ a, s = .list a
  · obtain ⟨a, rfl⟩ := h1
    obtain ⟨ss, hc, rfl⟩ := view_list hs hv
    cases e with
    | key k => simp [hsetElem, hs, Verif.setElem, setKey, hv]
    | index i =>
      simp only [hsetElem, hs, Verif.setElem, setIndex]
      exact setIndex_level hf i x hs hc ha
  by_cases h2 : ∃ a, s = .map a
  · obtain ⟨a, rfl⟩ := h2
    obtain ⟨m, hc, rfl⟩ := view_map hs hv
    cases e with
    | index i => simp [hsetElem, hs, Verif.setElem, setIndex, hv]
    | key k =>
      simp only [hsetElem, hs, cellSetKey, hc, Verif.setElem, setKey]
      refine ⟨?_, trivial⟩
      rw [viewAt_map hs hc ha, Ref.set_map_snd]
  · obtain ⟨g0, g1, g2⟩ := view_other hs hv h0 (fun a h => h1 ⟨a, h⟩) (fun a h => h2 ⟨a, h⟩)
    have e1 : hsetElem σ l e x = (σ, some .unexpectedType) := by
      cases s <;> simp_all [hsetElem]
    have e2 : Verif.setElem v e (f x) = (v, some .unexpectedType) := by
      cases e <;> cases v <;> simp_all [Verif.setElem, setKey, setIndex]
    rw [e1, e2]
    exact ⟨hv, rfl⟩

/-- Appending appends to the tree. -/
theorem append_level (f : Slot → Val) (σ : St) (l : Loc) (x : Slot) (v : Val) (hv : viewAt f σ l = some v)
    (ha : Apart σ l) : viewAt f (happend σ l x).1 l = some (Verif.append v (f x)).1 ∧ (happend σ l x).2 = (Verif.append v (f x)).2 := by
  obtain ⟨s, hs⟩ : ∃ s, σ.rd l = some s := by
    cases h : σ.rd l with
    | none => rw [viewAt, h] at hv; cases hv
    | some s => exact ⟨s, rfl⟩
  by_cases h0 : s = .null
  · subst h0
    have := view_null hs hv
    subst this
    obtain ⟨f1, f2, f3⟩ := fresh (.list [x]) (.list σ.cells.length) hs rfl
    simp only [happend, hs, Verif.append]
    refine ⟨?_, trivial⟩
    show viewAt f ((σ.alloc (.list [x])).1.wr l (.list σ.cells.length)) l = _
    rw [viewAt, f1]
    simp [view, f2]
  by_cases h1 : ∃ a, s = .list a
  · obtain ⟨a, rfl⟩ := h1
    obtain ⟨ss, hc, rfl⟩ := view_list hs hv
    simp only [happend, hs, hc, Verif.append]
    refine ⟨?_, trivial⟩
    rw [viewAt_list hs hc ha, List.map_append]
    rfl
  by_cases h2 : ∃ a, s = .map a
  · obtain ⟨a, rfl⟩ := h2
    obtain ⟨m, hc, rfl⟩ := view_map hs hv
    simp [happend, hs, Verif.append, hv]
  · obtain ⟨g0, g1, g2⟩ := view_other hs hv h0 (fun a h => h1 ⟨a, h⟩) (fun a h => h2 ⟨a, h⟩)
    have e1 : happend σ l x = (σ, some .unableToConvert) := by
      cases s <;> simp_all [happend]
    have e2 : Verif.append v (f x) = (v, some .unableToConvert) := by
      cases v <;> simp_all [Verif.append]
    rw [e1, e2]
    exact ⟨hv, rfl⟩

/-- Reading an element reads it in the tree. -/
theorem get_level (f : Slot → Val) (σ : St) (s : Slot) (e : PathElem) (v : Val) (hv : view f σ s = some v) :
    ((childLoc σ s e).bind σ.rd).map f = Verif.getElem? v e := by
  cases s with
  | list a =>
    simp only [view] at hv
    split at hv <;> cases hv
    next ss hc =>
    cases e with
    | key k => rfl
    | index i =>
      simp only [childLoc, hc, Verif.getElem?, getIndex?, List.getElem?_map]
      split
      · simp [St.rd, hc]
      · next h => simp [List.getElem?_eq_none (Nat.not_lt.mp h)]
  | map a =>
    simp only [view] at hv
    split at hv <;> cases hv
    next m hc =>
    cases e with
    | index i => rfl
    | key k =>
      simp only [childLoc, hc, Verif.getElem?, getKey?, Ref.get_map_snd]
      split
      · simp [St.rd, hc]
      · next h => rw [Option.not_isSome_iff_eq_none.mp h]; rfl
  | str a =>
    simp only [view] at hv
    split at hv <;> cases hv
    cases e <;> rfl
  | blob a =>
    simp only [view] at hv
    split at hv <;> cases hv
    cases e <;> rfl
  | _ => cases hv; cases e <;> rfl

/-- Clearing leaves an empty container or text, or null. -/
def cleared : Val → Val
  | .str _ => .str []
  | .list _ => .list []
  | .map _ => .map []
  | _ => .null

theorem clear_level (f : Slot → Val) (σ : St) (l : Loc) (v : Val) (hv : viewAt f σ l = some v) (ha : Apart σ l) :
    viewAt f (hclear σ l) l = some (cleared v) := by
  obtain ⟨s, hs⟩ : ∃ s, σ.rd l = some s := by
    cases h : σ.rd l with
    | none => rw [viewAt, h] at hv; cases hv
    | some s => exact ⟨s, rfl⟩
  have hn : viewAt f (σ.wr l .null) l = some .null := by
    rw [viewAt, rd_wr _ hs]
    rfl
  cases s with
  | list a =>
    obtain ⟨ss, hc, rfl⟩ := view_list hs hv
    simp only [hclear, hs]
    exact viewAt_list hs hc ha
  | map a =>
    obtain ⟨ss, hc, rfl⟩ := view_map hs hv
    simp only [hclear, hs]
    exact viewAt_map hs hc ha
  | str a =>
    simp only [hclear, hs]
    rw [viewAt, hs] at hv
    simp only [Option.bind_some, view] at hv
    split at hv <;> cases hv
    next b hc =>
    rw [viewAt, rd_put _ (ha _ a hs rfl), hs]
    simp [view, cells_put hc, cleared]
  | blob a =>
    simp only [hclear, hs]
    rw [viewAt, hs] at hv
    simp only [Option.bind_some, view] at hv
    split at hv <;> cases hv
    exact hn
  | _ =>
    simp only [hclear, hs]
    rw [viewAt, hs] at hv
    cases hv
    exact hn

/-- A list of three in variable 0: erasing index 1 leaves null there, index 2 shortens the list, index 3 changes nothing. -/
example :
    let σ : St := { cells := [.list [.int 1, .int 2, .int 3]], env := fun _ => .list 0 }
    Apart σ (.var 0) ∧ (heraseElem σ (.var 0) (.index 1)).1.cells = [.list [.int 1, .null, .int 3]] ∧
    (heraseElem σ (.var 0) (.index 2)).1.cells = [.list [.int 1, .int 2]] ∧
    (heraseElem σ (.var 0) (.index 3)).1.cells = σ.cells := by
  refine ⟨?_, ?_, ?_, ?_⟩
  · intro s a _ _ h; cases h
  all_goals decide

end Verif.Heap
