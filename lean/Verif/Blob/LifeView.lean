import Verif.Blob.LifeProps
/-!
# C109: what the variables hold after each operation
-/

namespace Verif.BlobLife
open Verif Blob

/-- What a variant holds: something else, nothing (after a failure), or a pointer to a blob. -/
inductive View where
  | other | broken
  | blob (p : Option Nat)
  deriving DecidableEq, Repr

/-- What a variant holds. -/
def viewCell (ss : List (Nat × Option Nat)) : Cell → View
  | .other => .other
  | .broken => .broken
  | .blob i => .blob ((ss[i]?.map (·.2)).getD none)

/-- What the variants hold. -/
def Mach.views (m : Mach) : List View := m.vars.map (viewCell m.storages)

/-- What the variables should hold after an operation that succeeds, when the next new blob is number `next`. -/
def Op.expected (ps : List (Option Nat)) (vs : List View) (next : Nat) : Op → List (Option Nat) × List View
  | .create x _ _ _ => (ps.set x (some next), vs)
  | .copy x _ _ _ => (ps.set x (some next), vs)
  | .assign x y => (ps.set x (ps[y]?.getD none), vs)
  | .reset x => (ps.set x none, vs)
  | .use _ => (ps, vs)
  | .setVar v x _ => (ps, vs.set v (.blob (ps[x]?.getD none)))
  | .assignVar v u => (ps, match vs[u]? with
    | some c => vs.set v c
    | none => vs)
  | .clearVar v => (ps, vs.set v .other)
  | .getPtr x v => (match vs[v]? with
    | some (.blob p) => ps.set x p
    | _ => ps, vs)
  | .copyVar v u _ _ _ => (ps, match vs[u]? with
    | some (.blob none) => vs.set v (.blob none)
    | some (.blob (some _)) => vs.set v (.blob (some next))
    | _ => vs.set v .other)
  | .sizeVar _ => (ps, vs)

/-- What they hold after an operation that throws. -/
def Op.thrown (ps : List (Option Nat)) (vs : List View) : Op → List (Option Nat) × List View
  | .setVar v _ _ => (ps, vs.set v .broken)
  | _ => (ps, vs)

theorem drop_same (m : Mach) : (drop m).ptrs = m.ptrs ∧ (drop m).vars = m.vars ∧ (drop m).storages = m.storages := by
  unfold drop
  split
  · exact ⟨rfl, rfl, rfl⟩
  · exact ⟨rfl, rfl, rfl⟩
  · split
    · exact ⟨rfl, rfl, rfl⟩
    · dsimp only; split <;> exact ⟨rfl, rfl, rfl⟩

theorem drop_views (m : Mach) : (drop m).views = m.views := by
  obtain ⟨_, h1, h2⟩ := drop_same m
  unfold Mach.views
  rw [h1, h2]

theorem set_out {α : Type} {l : List α} {i : Nat} (h : l[i]? = none) (a : α) : l.set i a = l :=
  List.set_eq_of_length_le (List.getElem?_eq_none_iff.1 h)

theorem store_same {m : Mach} {p : Option Nat} {ts : List (Option Nat)} (h : m.temps = p :: ts) (x : Nat) :
    (store m x).ptrs = m.ptrs.set x p ∧ (store m x).views = m.views := by
  unfold store
  rw [(drop_same _).1, drop_views]
  unfold swap
  rw [h]
  cases e : m.ptrs[x]? with
  | none => exact ⟨(set_out e p).symm, rfl⟩
  | some q => exact ⟨rfl, rfl⟩

theorem views_storage {m : Mach} {i : Nat} {c c' : Nat × Option Nat} (hc : m.storages[i]? = some c) (h : c'.2 = c.2 ∨ m.vars.count (.blob i) = 0) :
    m.vars.map (viewCell (m.storages.set i c')) = m.views := by
  unfold Mach.views
  apply List.map_congr_left
  intro a ha
  cases a with
  | other => rfl
  | broken => rfl
  | blob j =>
    show View.blob _ = View.blob _
    rw [List.getElem?_set]
    split
    · next e =>
      subst e
      rcases h with h | h
      · rw [if_pos (List.getElem?_eq_some_iff.1 hc).1, hc]
        simp only [Option.map_some, Option.getD_some, h]
      · exact absurd ha (List.count_eq_zero.1 h)
    · rfl

theorem sdrop_same {m : Mach} (h : Inv m) : (sdrop m).ptrs = m.ptrs ∧ (sdrop m).vars = m.vars ∧ (sdrop m).views = m.views := by
  unfold sdrop
  split
  · exact ⟨rfl, rfl, rfl⟩
  · next i is hs =>
    split
    · exact ⟨rfl, rfl, rfl⟩
    · next c hc =>
      have hu := h.suses i c hc
      unfold users at hu
      rw [hs, List.count_cons_self] at hu
      split
      · next e =>
        obtain ⟨h1, h2, h3⟩ := drop_same { m with stemps := is, storages := m.storages.set i (0, none), temps := c.2 :: m.temps }
        refine ⟨h1, h2, ?_⟩
        rw [drop_views]
        exact views_storage hc (.inr (by omega))
      · exact ⟨rfl, rfl, views_storage hc (.inl rfl)⟩

theorem take_same (m : Mach) (v : Nat) (c : Cell) :
    (take m v c).ptrs = m.ptrs ∧ (take m v c).vars = m.vars.set v c ∧ (take m v c).storages = m.storages := by
  unfold take
  split
  · exact ⟨rfl, rfl, rfl⟩
  · exact ⟨rfl, rfl, rfl⟩
  · next e => exact ⟨rfl, (set_out e c).symm, rfl⟩

theorem take_views (m : Mach) (v : Nat) (c : Cell) : (take m v c).views = m.views.set v (viewCell m.storages c) := by
  unfold Mach.views
  rw [(take_same m v c).2.1, (take_same m v c).2.2, List.map_set]

theorem destroyVar_same {m : Mach} (h : Inv m) (v : Nat) {c : Cell} (hn : ∀ i, c ≠ .blob i) :
    (destroyVar m v c).ptrs = m.ptrs ∧ (destroyVar m v c).vars = m.vars.set v c ∧ (destroyVar m v c).views = m.views.set v (viewCell m.storages c) := by
  unfold destroyVar
  split
  · obtain ⟨h1, h2, h3⟩ := sdrop_same (h.take v hn)
    exact ⟨h1.trans (take_same m v c).1, h2.trans (take_same m v c).2.1, h3.trans (take_views m v c)⟩
  · exact ⟨(take_same m v c).1, (take_same m v c).2.1, take_views m v c⟩

theorem sdrop_storage {m : Mach} (h : Inv m) {j : Nat} {is : List Nat} (hs : m.stemps = j :: is) {i : Nat} (hi : i ∈ is) :
    (sdrop m).storages[i]?.map (·.2) = m.storages[i]?.map (·.2) := by
  unfold sdrop
  rw [hs]
  dsimp only
  split
  · rfl
  · next c hc =>
    have hu := h.suses j c hc
    unfold users at hu
    rw [hs, List.count_cons_self] at hu
    split
    · next e =>
      rw [(drop_same _).2.2]
      show (m.storages.set j (0, none))[i]?.map _ = _
      rw [List.getElem?_set, if_neg]
      intro e'
      subst e'
      have := List.count_pos_iff.2 hi
      omega
    · show (m.storages.set j (c.1 - 1, c.2))[i]?.map _ = _
      rw [List.getElem?_set]
      split
      · next e' =>
        subst e'
        rw [if_pos (List.getElem?_eq_some_iff.1 hc).1, hc]
        rfl
      · rfl

theorem destroyVar_storage {m : Mach} (h : Inv m) (v : Nat) {c : Cell} (hn : ∀ i, c ≠ .blob i) {i : Nat} (hi : i ∈ m.stemps) :
    (destroyVar m v c).storages[i]?.map (·.2) = m.storages[i]?.map (·.2) := by
  unfold destroyVar
  split
  · next j e =>
    rw [sdrop_storage (h.take v hn) (j := j) (is := m.stemps) (by unfold take; rw [e]) hi, (take_same m v c).2.2]
  · rw [(take_same m v c).2.2]

theorem spush_storage (m : Mach) (i j : Nat) : (((spush m i).storages[j]?.map (·.2)).getD none) = ((m.storages[j]?.map (·.2)).getD none) := by
  show (((m.storages.modify i _)[j]?.map _).getD none) = _
  rw [List.getElem?_modify]
  split <;> cases m.storages[j]? <;> rfl

theorem spush_views (m : Mach) (i : Nat) : (spush m i).views = m.views := by
  unfold Mach.views
  apply List.map_congr_left
  intro a ha
  cases a with
  | other => rfl
  | broken => rfl
  | blob j => exact congrArg View.blob (spush_storage m i j)

theorem put_same {m : Mach} (h : Inv m) {i : Nat} {is : List Nat} (hs : m.stemps = i :: is) {v : Nat}
    (hv : m.vars[v]? = some .other ∨ m.vars[v]? = none) :
    (put m v).ptrs = m.ptrs ∧ (put m v).views = m.views.set v (.blob ((m.storages[i]?.map (·.2)).getD none)) := by
  unfold put
  rw [hs]
  rcases hv with e | e
  · rw [e]
    refine ⟨rfl, ?_⟩
    show List.map (viewCell m.storages) (m.vars.set v (.blob i)) = _
    rw [List.map_set]
    rfl
  · rw [e]
    obtain ⟨h1, h2, h3⟩ := sdrop_same h
    refine ⟨h1, h3.trans (set_out ?_ _).symm⟩
    unfold Mach.views
    rw [List.getElem?_map, e]
    rfl

theorem vars_set (l : List Cell) (v : Nat) : (l.set v .other)[v]? = some .other ∨ (l.set v .other)[v]? = none := by
  rw [List.getElem?_set]
  rw [if_pos rfl]
  split
  · exact .inl rfl
  · exact .inr rfl

/-- A new storage does not change what the variants hold. -/
theorem views_append {m : Mach} (h : Inv m) (c : Nat × Option Nat) : m.vars.map (viewCell (m.storages ++ [c])) = m.views := by
  unfold Mach.views
  apply List.map_congr_left
  intro a ha
  cases a with
  | other => rfl
  | broken => rfl
  | blob j =>
    have : j < m.storages.length := h.sto j (by have := List.count_pos_iff.2 ha; unfold users; omega)
    show View.blob _ = View.blob _
    rw [List.getElem?_append_left this]

theorem initVar_same {m : Mach} (h : Inv m) {p : Option Nat} {ts : List (Option Nat)} (hp : m.temps = p :: ts) (v : Nat) (fails : Bool) :
    (initVar m v fails).1.ptrs = m.ptrs ∧ (initVar m v fails).1.views = m.views.set v (if fails then .broken else .blob p) ∧
    (initVar m v fails).2 = if fails then .badAlloc else .ok := by
  unfold initVar
  rw [hp]
  dsimp only
  cases fails with
  | true =>
    obtain ⟨h1, h2, h3⟩ := destroyVar_same h v (c := .broken) (fun _ e => by cases e)
    exact ⟨(drop_same _).1.trans h1, (drop_views _).trans h3, rfl⟩
  | false =>
    obtain ⟨h1, h2, h3⟩ := destroyVar_same h v (c := .other) (fun _ e => by cases e)
    have hi := h.destroyVar v (now := .other) (fun _ e => by cases e)
    have hi2 := hi.newStorage (p := p) (by
      intro b hb
      unfold holders
      rw [destroyVar_temps, hp, hb, List.count_cons_self]
      omega)
    rw [if_neg (by decide), if_neg (by decide)]
    dsimp only
    have hput := put_same hi2 (i := (destroyVar m v .other).storages.length) (is := (destroyVar m v .other).stemps) rfl (v := v)
      (by show (destroyVar m v .other).vars[v]? = _ ∨ (destroyVar m v .other).vars[v]? = _; rw [h2]; exact vars_set _ _)
    refine ⟨(drop_same _).1.trans (hput.1.trans h1), ((drop_views _).trans hput.2).trans ?_, rfl⟩
    show (List.map (viewCell ((destroyVar m v .other).storages ++ [(1, p)])) (destroyVar m v .other).vars).set v
      (.blob ((((destroyVar m v .other).storages ++ [(1, p)])[(destroyVar m v .other).storages.length]?.map (·.2)).getD none)) = _
    rw [views_append hi, h3, List.set_set]
    simp

theorem makeBlob_same (m : Mach) (iov : List Iov) (free : Option Free) (fails : Option Nat) :
    (makeBlob m iov free fails).1.ptrs = m.ptrs ∧ (makeBlob m iov free fails).1.vars = m.vars ∧ (makeBlob m iov free fails).1.views = m.views ∧
    ((makeBlob m iov free fails).2 = .ok → (makeBlob m iov free fails).1.temps = some m.blobs.length :: m.temps) := by
  unfold makeBlob
  split
  · exact ⟨rfl, rfl, rfl, fun _ => rfl⟩
  · exact ⟨rfl, rfl, rfl, nofun⟩
  · exact ⟨rfl, rfl, rfl, nofun⟩

theorem makeCopy_same (m : Mach) (base : Nat) (iov : List Iov) (fails : Option Nat) :
    (makeCopy m base iov fails).1.ptrs = m.ptrs ∧ (makeCopy m base iov fails).1.vars = m.vars ∧ (makeCopy m base iov fails).1.views = m.views ∧
    ((makeCopy m base iov fails).2 = .ok → (makeCopy m base iov fails).1.temps = some m.blobs.length :: m.temps) := by
  unfold makeCopy
  split
  · exact ⟨rfl, rfl, rfl, nofun⟩
  · exact makeBlob_same { m with owned := m.owned ++ [base] } _ _ _

theorem views_get (m : Mach) (v : Nat) : m.views[v]? = m.vars[v]?.map (viewCell m.storages) := List.getElem?_map

theorem inside_view {m : Mach} {i : Nat} {p : Option Nat} (h : inside m i = some p) : (m.storages[i]?.map (·.2)).getD none = p := by
  unfold inside at h
  split at h
  · cases h
  · next c e =>
    split at h
    · cases h
    · cases h
      rw [e]
      rfl

/-- C109: in every program, each operation makes the variables hold what it should: an operation that succeeds does what it says, and one that throws
changes nothing, except that assigning a blob to a variant can leave the variant broken. -/
theorem operations_partial {n k : Nat} {os : List Op} {m : Mach} (h : run (.init n k) os = some m) (o : Op) :
    ((step m o).2 = .ok → ((step m o).1.ptrs, (step m o).1.views) = o.expected m.ptrs m.views m.blobs.length) ∧
    ((step m o).2 = .badAlloc ∨ (step m o).2 = .typeError → ((step m o).1.ptrs, (step m o).1.views) = o.thrown m.ptrs m.views) := by
  have hi : Inv m := Inv.run os (inv_init n k) h
  cases o with
  | create x iov free fails =>
    obtain ⟨h1, h2, h3, h4⟩ := makeBlob_same m iov free fails
    unfold step
    dsimp only
    split
    · next m' e =>
      rw [e] at h1 h2 h3 h4
      obtain ⟨s1, s2⟩ := store_same (h4 rfl) x
      refine ⟨fun _ => Prod.ext (s1.trans ?_) (s2.trans h3), by rintro (h | h) <;> cases h⟩
      rw [h1]; rfl
    · next hn => exact ⟨fun e => (hn _ (Prod.ext rfl e)).elim, fun _ => Prod.ext h1 h3⟩
  | copy x y base fails =>
    unfold step
    dsimp only
    split
    · exact ⟨nofun, by rintro (h | h) <;> cases h⟩
    · next o _ =>
      obtain ⟨h1, h2, h3, h4⟩ := makeCopy_same m base o.iov fails
      split
      · next m' e =>
        rw [e] at h1 h2 h3 h4
        obtain ⟨s1, s2⟩ := store_same (h4 rfl) x
        refine ⟨fun _ => Prod.ext (s1.trans ?_) (s2.trans h3), by rintro (h | h) <;> cases h⟩
        rw [h1]; rfl
      · next hn => exact ⟨fun e => (hn _ (Prod.ext rfl e)).elim, fun _ => Prod.ext h1 h3⟩
  | assign x y =>
    obtain ⟨s1, s2⟩ := store_same (m := push m (m.ptrs[y]?.getD none)) rfl x
    exact ⟨fun _ => Prod.ext s1 s2, by rintro (h | h) <;> cases h⟩
  | reset x =>
    obtain ⟨s1, s2⟩ := store_same (m := push m none) rfl x
    exact ⟨fun _ => Prod.ext s1 s2, by rintro (h | h) <;> cases h⟩
  | use x =>
    unfold step
    dsimp only
    split
    · exact ⟨nofun, by rintro (h | h) <;> cases h⟩
    · exact ⟨fun _ => rfl, fun _ => rfl⟩
  | setVar v x fails =>
    obtain ⟨s1, s2, s3⟩ := initVar_same (hi.push (p := m.ptrs[x]?.getD none) fun _ hb => ptr_pos hb) rfl v fails
    cases fails with
    | true => exact ⟨fun e => (by rw [show (step m (.setVar v x true)).2 = _ from s3] at e; cases e), fun _ => Prod.ext s1 s2⟩
    | false => exact ⟨fun _ => Prod.ext s1 s2, fun e => by rw [show (step m (.setVar v x false)).2 = _ from s3] at e; rcases e with e | e <;> cases e⟩
  | assignVar v u =>
    have he : (step m (.assignVar v u)).2 = .ok := by
      unfold step; dsimp only; split <;> rfl
    refine ⟨fun _ => ?_, fun e => by rw [he] at e; rcases e with e | e <;> cases e⟩
    unfold step Op.expected
    dsimp only
    rw [views_get]
    split
    · next i e =>
      have hs : Inv (spush m i) := hi.spush (by have := count_pos' (Cell.blob i) e; unfold users; omega)
      have hd := hs.destroyVar v (now := .other) (fun _ e => by cases e)
      obtain ⟨d1, d2, d3⟩ := destroyVar_same hs v (c := .other) (fun _ e => by cases e)
      obtain ⟨p1, p2⟩ := put_same hd (i := i) (is := m.stemps) (by rw [destroyVar_stemps]; rfl) (v := v) (by rw [d2]; exact vars_set _ _)
      refine Prod.ext (p1.trans d1) (p2.trans ?_)
      rw [d3, List.set_set, destroyVar_storage hs v (c := .other) (fun _ e => by cases e) (i := i) List.mem_cons_self, e]
      exact congr (congrArg (fun l => l.set v) (spush_views m i)) (congrArg View.blob (spush_storage m i i))
    · next c hc e =>
      rw [e]
      obtain ⟨d1, d2, d3⟩ := destroyVar_same hi v hc
      exact Prod.ext d1 d3
    · next e => rw [e]; rfl
  | clearVar v =>
    obtain ⟨d1, d2, d3⟩ := destroyVar_same hi v (c := .other) (fun _ e => by cases e)
    exact ⟨fun _ => Prod.ext d1 d3, by rintro (h | h) <;> cases h⟩
  | getPtr x v =>
    unfold step Op.expected
    dsimp only
    rw [views_get]
    split
    · next i e =>
      split
      · exact ⟨nofun, by rintro (h | h) <;> cases h⟩
      · next p ep =>
        obtain ⟨s1, s2⟩ := store_same (m := push m p) rfl x
        refine ⟨fun _ => ?_, by rintro (h | h) <;> cases h⟩
        rw [e]
        refine Prod.ext (s1.trans ?_) s2
        show m.ptrs.set x p = m.ptrs.set x ((m.storages[i]?.map (·.2)).getD none)
        rw [inside_view ep]
    · exact ⟨nofun, by rintro (h | h) <;> cases h⟩
    · exact ⟨nofun, fun _ => rfl⟩
  | copyVar v u base fails fails' =>
    unfold step Op.expected
    dsimp only
    rw [views_get]
    split
    · next i e =>
      rw [e]
      split
      · exact ⟨nofun, by rintro (h | h) <;> cases h⟩
      · next ep =>
        have hv : viewCell m.storages (.blob i) = .blob none := congrArg View.blob (inside_view ep)
        rw [Option.map_some, hv]
        split
        · exact ⟨nofun, fun _ => rfl⟩
        · obtain ⟨s1, s2, s3⟩ := initVar_same (hi.push (p := none) fun _ e => by cases e) rfl v false
          exact ⟨fun _ => Prod.ext s1 s2, fun e => by rw [s3] at e; rcases e with e | e <;> cases e⟩
      · next b ep =>
        have hv : viewCell m.storages (.blob i) = .blob (some b) := congrArg View.blob (inside_view ep)
        rw [Option.map_some, hv]
        split
        · exact ⟨nofun, by rintro (h | h) <;> cases h⟩
        · next o _ =>
          obtain ⟨h1, h2, h3, h4⟩ := makeCopy_same m base o.iov fails
          have hc := hi.makeCopy base o.iov fails
          split
          · next m' em =>
            rw [em] at h1 h2 h3 h4 hc
            split
            · exact ⟨nofun, fun _ => Prod.ext ((drop_same _).1.trans h1) ((drop_views _).trans h3)⟩
            · obtain ⟨s1, s2, s3⟩ := initVar_same hc (h4 rfl) v false
              refine ⟨fun _ => Prod.ext (s1.trans h1) (s2.trans ?_), fun e => by rw [s3] at e; rcases e with e | e <;> cases e⟩
              show m'.views.set v _ = m.views.set v _
              rw [show m'.views = m.views from h3]
              rfl
          · next hn => exact ⟨fun e => (hn _ (Prod.ext rfl e)).elim, fun _ => Prod.ext h1 h3⟩
    · exact ⟨nofun, by rintro (h | h) <;> cases h⟩
    · next h1 h2 =>
      obtain ⟨d1, d2, d3⟩ := destroyVar_same hi v (c := .other) (fun _ e => by cases e)
      refine ⟨fun _ => Prod.ext d1 (d3.trans ?_), by rintro (h | h) <;> cases h⟩
      cases e : m.vars[u]? with
      | none => rfl
      | some c =>
        cases c with
        | other => rfl
        | broken => exact absurd e h2
        | blob i => exact absurd e (h1 i)
  | sizeVar v =>
    unfold step
    dsimp only
    split
    · split
      · exact ⟨nofun, by rintro (h | h) <;> cases h⟩
      · split
        · exact ⟨nofun, by rintro (h | h) <;> cases h⟩
        · exact ⟨fun _ => rfl, fun _ => rfl⟩
    · exact ⟨nofun, by rintro (h | h) <;> cases h⟩
    · exact ⟨fun _ => rfl, fun _ => rfl⟩

/-- C109: `Copy` through a pointer makes one buffer of the total length, of memory to be freed. -/
theorem copied_blob {m : Mach} {x y base b : Nat} {o : Obj} (hy : m.ptrs[y]? = some (some b)) (ho : m.blobs[b]? = some o) (hu : o.uses ≠ 0) :
    (step m (.copy x y base none)).2 = .ok ∧ base ∈ (step m (.copy x y base none)).1.owned ∧
    ∃ u, (step m (.copy x y base none)).1.blobs[m.blobs.length]? = some ⟨u, [⟨base, totalLength (o.iov.map (·.len))⟩], some mallocFree⟩ := by
  have hl : look m (m.ptrs[y]?.getD none) = some o := by
    rw [hy]
    show look m (some b) = _
    unfold look
    dsimp only
    rw [ho]
    exact if_neg hu
  unfold step
  dsimp only
  rw [hl]
  refine ⟨rfl, ?_, ?_⟩
  · show base ∈ (store _ x).owned
    rw [owned_store]
    exact List.mem_append_right _ List.mem_cons_self
  · obtain ⟨m', hm, hb⟩ : ∃ m', (makeCopy m base o.iov none).1 = m' ∧
        m'.blobs[m.blobs.length]? = some ⟨1, [⟨base, totalLength (o.iov.map (·.len))⟩], some mallocFree⟩ :=
      ⟨_, rfl, List.getElem?_concat_length⟩
    show ∃ u, (store (makeCopy m base o.iov none).1 x).blobs[m.blobs.length]? = _
    rw [hm]
    exact kept_store m' x _ _ hb

example : (run (.init 2 0) [.create 0 [⟨100, 3⟩, ⟨200, 4⟩] none none, .copy 1 0 300 none]).map (·.blobs) =
    some [⟨1, [⟨100, 3⟩, ⟨200, 4⟩], none⟩, ⟨1, [⟨300, 7⟩], some mallocFree⟩] := rfl

/-- In the program above, at the end: the pointer is empty, the first variant holds something else, the second the blob, the third its copy. -/
example : (run (.init 1 3) exProgram).map (fun m => (m.ptrs, m.views)) = some ([none], [.other, .blob (some 0), .blob (some 1)]) := rfl

end Verif.BlobLife
