import Verif.Blob.LifeInv
/-!
# C109: buffers are released once, and not before
-/

namespace Verif.BlobLife
open Verif Blob

/-- A pointer variable or a variant holds the blob. -/
def Held (m : Mach) (b : Nat) : Prop :=
  some b ∈ m.ptrs ∨ ∃ i n, Cell.blob i ∈ m.vars ∧ m.storages[i]? = some (n, some b)

/-! ## Between operations there are no temporaries -/

theorem drop_stemps (m : Mach) : (drop m).stemps = m.stemps := by
  unfold drop
  split
  · rfl
  · rfl
  · split
    · rfl
    · dsimp only; split <;> rfl

theorem sdrop_stemps {m : Mach} {i : Nat} {is : List Nat} (h : m.stemps = i :: is) : (sdrop m).stemps = is := by
  unfold sdrop
  rw [h]
  dsimp only
  split
  · rfl
  · split
    · rw [drop_stemps]
    · rfl

theorem destroyVar_stemps (m : Mach) (v : Nat) (c : Cell) : (destroyVar m v c).stemps = m.stemps := by
  unfold destroyVar
  split
  · next e => exact sdrop_stemps (by unfold take; rw [e])
  · next h =>
    unfold take
    split
    · next i e => exact absurd e (h i)
    · rfl
    · rfl

theorem put_stemps {m : Mach} {i : Nat} {is : List Nat} (h : m.stemps = i :: is) (v : Nat) : (put m v).stemps = is := by
  unfold put
  split
  · next e _ => rw [h] at e; cases e; rfl
  · exact sdrop_stemps h

theorem put_temps (m : Mach) (v : Nat) : (put m v).temps = m.temps := by
  unfold put
  split
  · rfl
  · exact sdrop_temps m

theorem swap_stemps (m : Mach) (x : Nat) : (swap m x).stemps = m.stemps := by unfold swap; split <;> rfl

theorem store_temps {m : Mach} {p : Option Nat} {ts : List (Option Nat)} (h : m.temps = p :: ts) (x : Nat) : (store m x).temps = ts := by
  unfold store
  unfold swap
  split
  · next e _ => rw [h] at e; cases e; exact drop_temps rfl
  · exact drop_temps h

theorem store_stemps (m : Mach) (x : Nat) : (store m x).stemps = m.stemps := (drop_stemps _).trans (swap_stemps m x)

/-- No temporaries. -/
def Quiet (m : Mach) : Prop := m.temps = [] ∧ m.stemps = []

theorem makeBlob_quiet {m : Mach} (h : Quiet m) (iov : List Iov) (free : Option Free) (fails : Option Nat) :
    (makeBlob m iov free fails).1.stemps = [] ∧
    (((makeBlob m iov free fails).2 = .ok ∧ ∃ p, (makeBlob m iov free fails).1.temps = [p]) ∨
     ((makeBlob m iov free fails).2 ≠ .ok ∧ (makeBlob m iov free fails).1.temps = [])) := by
  unfold makeBlob
  split
  · exact ⟨h.2, .inl ⟨rfl, _, by rw [h.1]⟩⟩
  · exact ⟨h.2, .inr ⟨nofun, h.1⟩⟩
  · exact ⟨h.2, .inr ⟨nofun, h.1⟩⟩

theorem makeCopy_quiet {m : Mach} (h : Quiet m) (base : Nat) (iov : List Iov) (fails : Option Nat) :
    (makeCopy m base iov fails).1.stemps = [] ∧
    (((makeCopy m base iov fails).2 = .ok ∧ ∃ p, (makeCopy m base iov fails).1.temps = [p]) ∨
     ((makeCopy m base iov fails).2 ≠ .ok ∧ (makeCopy m base iov fails).1.temps = [])) := by
  unfold makeCopy
  split
  · exact ⟨h.2, .inr ⟨nofun, h.1⟩⟩
  · exact makeBlob_quiet (m := { m with owned := m.owned ++ [base] }) h _ _ _

theorem store_quiet {m : Mach} (h : m.stemps = []) (h' : ∃ p, m.temps = [p]) (x : Nat) : Quiet (store m x) := by
  obtain ⟨p, hp⟩ := h'
  exact ⟨store_temps hp x, (store_stemps m x).trans h⟩

theorem initVar_quiet {m : Mach} (h : m.stemps = []) (h' : ∃ p, m.temps = [p]) (v : Nat) (fails : Bool) : Quiet (initVar m v fails).1 := by
  obtain ⟨p, hp⟩ := h'
  unfold initVar
  split
  · next e => rw [hp] at e; cases e
  · next p' ts e =>
    rw [hp] at e; cases e
    split
    · exact ⟨drop_temps (by rw [destroyVar_temps, hp]), by rw [drop_stemps, destroyVar_stemps]; exact h⟩
    · refine ⟨drop_temps (p := p) (by rw [put_temps]; show (destroyVar m v .other).temps = _; rw [destroyVar_temps, hp]), ?_⟩
      rw [drop_stemps]
      exact put_stemps (by show _ :: (destroyVar m v .other).stemps = _; rw [destroyVar_stemps, h]) v

theorem destroyVar_quiet {m : Mach} (h : Quiet m) (v : Nat) (c : Cell) : Quiet (destroyVar m v c) :=
  ⟨(destroyVar_temps m v c).trans h.1, (destroyVar_stemps m v c).trans h.2⟩

theorem push_one {m : Mach} (h : Quiet m) (p : Option Nat) : (push m p).stemps = [] ∧ ∃ q, (push m p).temps = [q] :=
  ⟨h.2, p, by show p :: m.temps = _; rw [h.1]⟩

theorem Quiet.step {m : Mach} (h : Quiet m) (o : Op) : Quiet (step m o).1 := by
  cases o with
  | create x iov free fails =>
    obtain ⟨h1, h2⟩ := makeBlob_quiet h iov free fails
    unfold BlobLife.step
    dsimp only
    split
    · next e =>
      rw [e] at h1 h2
      rcases h2 with h2 | h2
      · exact store_quiet h1 h2.2 x
      · exact absurd rfl h2.1
    · next hn =>
      rcases h2 with h2 | h2
      · exact (hn _ (Prod.ext rfl h2.1)).elim
      · exact ⟨h2.2, h1⟩
  | copy x y base fails =>
    unfold BlobLife.step
    dsimp only
    split
    · exact h
    · next o _ =>
      obtain ⟨h1, h2⟩ := makeCopy_quiet h base o.iov fails
      split
      · next e =>
        rw [e] at h1 h2
        rcases h2 with h2 | h2
        · exact store_quiet h1 h2.2 x
        · exact absurd rfl h2.1
      · next hn =>
        rcases h2 with h2 | h2
        · exact (hn _ (Prod.ext rfl h2.1)).elim
        · exact ⟨h2.2, h1⟩
  | assign x y => exact store_quiet (push_one h _).1 (push_one h _).2 x
  | reset x => exact store_quiet (push_one h _).1 (push_one h _).2 x
  | use x => unfold BlobLife.step; dsimp only; split <;> exact h
  | setVar v x fails => exact initVar_quiet (push_one h _).1 (push_one h _).2 v fails
  | assignVar v u =>
    unfold BlobLife.step
    dsimp only
    split
    · next i e =>
      refine ⟨?_, put_stemps (by rw [destroyVar_stemps]; show i :: m.stemps = _; rw [h.2]) v⟩
      rw [put_temps, destroyVar_temps]
      exact h.1
    · exact destroyVar_quiet h _ _
    · exact h
  | clearVar v => exact destroyVar_quiet h _ _
  | getPtr x v =>
    unfold BlobLife.step
    dsimp only
    split
    · split
      · exact h
      · exact store_quiet (push_one h _).1 (push_one h _).2 x
    · exact h
    · exact h
  | copyVar v u base fails fails' =>
    unfold BlobLife.step
    dsimp only
    split
    · split
      · exact h
      · split
        · exact h
        · exact initVar_quiet (push_one h _).1 (push_one h _).2 v false
      · split
        · exact h
        · next o _ =>
          obtain ⟨h1, h2⟩ := makeCopy_quiet h base o.iov fails
          split
          · next e =>
            rw [e] at h1 h2
            rcases h2 with h2 | h2
            · split
              · obtain ⟨p, hp⟩ := h2.2
                exact ⟨drop_temps hp, (drop_stemps _).trans h1⟩
              · exact initVar_quiet h1 h2.2 v false
            · exact absurd rfl h2.1
          · next hn =>
            rcases h2 with h2 | h2
            · exact (hn _ (Prod.ext rfl h2.1)).elim
            · exact ⟨h2.2, h1⟩
    · exact h
    · exact destroyVar_quiet h _ _
  | sizeVar v =>
    unfold BlobLife.step
    dsimp only
    split
    · split
      · exact h
      · split <;> exact h
    · exact h
    · exact h

theorem Quiet.run : ∀ (os : List Op) {m t : Mach}, Quiet m → run m os = some t → Quiet t
  | [], _, _, h, e => by cases e; exact h
  | o :: os, m, t, h, e => by
    have h1 := h.step o
    unfold BlobLife.run at e
    split at e
    · cases e
    · next m' r _ he => rw [he] at h1; exact Quiet.run os h1 e

theorem held_iff {m : Mach} (h : Inv m) (q : Quiet m) (b : Nat) : Held m b ↔ 0 < holders m b := by
  constructor
  · rintro (h1 | ⟨i, n, _, h1⟩)
    · have := List.count_pos_iff.2 h1
      unfold holders; omega
    · have := count_pos' (some b) (l := m.storages.map (·.2)) (i := i) (by rw [List.getElem?_map, h1]; rfl)
      unfold holders; omega
  · intro h1
    by_cases h2 : some b ∈ m.ptrs
    · exact .inl h2
    · right
      have h3 : 0 < (m.storages.map (·.2)).count (some b) := by
        have := List.count_eq_zero.2 h2
        unfold holders at h1
        rw [this, q.1] at h1
        simpa using h1
      obtain ⟨c, hc, e⟩ := List.mem_map.1 (List.count_pos_iff.1 h3)
      obtain ⟨i, hi⟩ := List.getElem?_of_mem hc
      have h4 : c.1 ≠ 0 := fun e' => by rw [h.dead i c hi e'] at e; cases e
      rw [h.suses i c hi] at h4
      unfold users at h4
      rw [q.2] at h4
      refine ⟨i, c.1, List.count_pos_iff.1 (by simp at h4; omega), ?_⟩
      rw [hi, ← e]

/-! ## Blobs do not change -/

/-- The blobs are still there, with the same buffers. -/
def Kept (m m' : Mach) : Prop := ∀ (b : Nat) (o : Obj), m.blobs[b]? = some o → ∃ n, m'.blobs[b]? = some { o with uses := n }

theorem Kept.refl {m m' : Mach} (h : m'.blobs = m.blobs) : Kept m m' := fun b o ho => ⟨o.uses, by rw [h]; exact ho⟩

theorem Kept.trans {a b c : Mach} (h : Kept a b) (h' : Kept b c) : Kept a c := by
  intro i o ho
  obtain ⟨n, e⟩ := h i o ho
  obtain ⟨k, e'⟩ := h' i _ e
  exact ⟨k, e'⟩

theorem kept_push (m : Mach) (p : Option Nat) : Kept m (push m p) := by
  intro b o ho
  refine ⟨o.uses + ind (p = some b), ?_⟩
  show (retain m.blobs p)[b]? = _
  rw [retain_getElem, ho]
  rfl

theorem kept_drop (m : Mach) : Kept m (drop m) := by
  unfold drop
  split
  · exact .refl rfl
  · exact .refl rfl
  · next b ts _ =>
    split
    · exact .refl rfl
    · next o ho =>
      have key : ∀ (a : Nat) (o' : Obj), m.blobs[a]? = some o' → ∃ n, (m.blobs.set b { o with uses := o.uses - 1 })[a]? = some { o' with uses := n } := by
        intro a o' ho'
        rw [List.getElem?_set]
        split
        · next e =>
          subst e
          rw [ho] at ho'
          cases ho'
          rw [if_pos (List.getElem?_eq_some_iff.1 ho).1]
          exact ⟨_, rfl⟩
        · exact ⟨o'.uses, ho'⟩
      dsimp only
      split
      · exact key
      · exact key

theorem kept_sdrop (m : Mach) : Kept m (sdrop m) := by
  unfold sdrop
  split
  · exact .refl rfl
  · split
    · exact .refl rfl
    · split
      · exact fun b o ho => kept_drop _ b o ho
      · exact .refl rfl

theorem kept_swap (m : Mach) (x : Nat) : Kept m (swap m x) := .refl (by unfold swap; split <;> rfl)
theorem kept_store (m : Mach) (x : Nat) : Kept m (store m x) := (kept_swap m x).trans (kept_drop _)
theorem kept_take (m : Mach) (v : Nat) (c : Cell) : Kept m (take m v c) := .refl (by unfold take; split <;> rfl)
theorem kept_destroyVar (m : Mach) (v : Nat) (c : Cell) : Kept m (destroyVar m v c) := by
  unfold destroyVar
  split
  · exact (kept_take m v c).trans (kept_sdrop _)
  · exact kept_take m v c
theorem kept_put (m : Mach) (v : Nat) : Kept m (put m v) := by
  unfold put
  split
  · exact .refl rfl
  · exact kept_sdrop m

theorem kept_makeBlob (m : Mach) (iov : List Iov) (free : Option Free) (fails : Option Nat) : Kept m (makeBlob m iov free fails).1 := by
  have key : ∀ (x : Obj) (a : Nat) (o : Obj), m.blobs[a]? = some o → (m.blobs ++ [x])[a]? = some o := by
    intro x a o ho
    rw [List.getElem?_append_left (List.getElem?_eq_some_iff.1 ho).1]
    exact ho
  unfold makeBlob
  split
  · exact fun b o ho => ⟨o.uses, key _ b o ho⟩
  · exact fun b o ho => ⟨o.uses, key _ b o ho⟩
  · exact .refl rfl

theorem kept_makeCopy (m : Mach) (base : Nat) (iov : List Iov) (fails : Option Nat) : Kept m (makeCopy m base iov fails).1 := by
  unfold makeCopy
  split
  · exact .refl rfl
  · exact fun b o ho => kept_makeBlob _ _ _ _ b o ho

theorem kept_initVar (m : Mach) (v : Nat) (fails : Bool) : Kept m (initVar m v fails).1 := by
  unfold initVar
  split
  · exact .refl rfl
  · next p _ _ =>
    split
    · exact (kept_destroyVar _ _ _).trans (kept_drop _)
    · have h : Kept (destroyVar m v .other) { destroyVar m v .other with
          storages := (destroyVar m v .other).storages ++ [(1, p)], blobs := retain (destroyVar m v .other).blobs p,
          stemps := (destroyVar m v .other).storages.length :: (destroyVar m v .other).stemps } := kept_push (destroyVar m v .other) p
      exact (kept_destroyVar _ _ _).trans (h.trans ((kept_put _ _).trans (kept_drop _)))

theorem kept_step (m : Mach) (o : Op) : Kept m (step m o).1 := by
  cases o with
  | create x iov free fails =>
    have := kept_makeBlob m iov free fails
    unfold BlobLife.step
    dsimp only
    split
    · next e => rw [e] at this; exact this.trans (kept_store _ x)
    · exact this
  | copy x y base fails =>
    unfold BlobLife.step
    dsimp only
    split
    · exact .refl rfl
    · next o _ =>
      have := kept_makeCopy m base o.iov fails
      split
      · next e => rw [e] at this; exact this.trans (kept_store _ x)
      · exact this
  | assign x y => exact (kept_push _ _).trans (kept_store _ _)
  | reset x => exact (kept_push _ _).trans (kept_store _ _)
  | use x => unfold BlobLife.step; dsimp only; split <;> exact .refl rfl
  | setVar v x fails => exact (kept_push _ _).trans (kept_initVar _ _ _)
  | assignVar v u =>
    unfold BlobLife.step
    dsimp only
    split
    · next i _ => exact Kept.trans (b := spush m i) (.refl rfl) ((kept_destroyVar _ _ _).trans (kept_put _ _))
    · exact kept_destroyVar _ _ _
    · exact .refl rfl
  | clearVar v => exact kept_destroyVar _ _ _
  | getPtr x v =>
    unfold BlobLife.step
    dsimp only
    split
    · split
      · exact .refl rfl
      · exact (kept_push _ _).trans (kept_store _ _)
    · exact .refl rfl
    · exact .refl rfl
  | copyVar v u base fails fails' =>
    unfold BlobLife.step
    dsimp only
    split
    · split
      · exact .refl rfl
      · split
        · exact .refl rfl
        · exact (kept_push _ _).trans (kept_initVar _ _ _)
      · split
        · exact .refl rfl
        · next o _ =>
          have := kept_makeCopy m base o.iov fails
          split
          · next e =>
            rw [e] at this
            split
            · exact this.trans (kept_drop _)
            · exact this.trans (kept_initVar _ _ _)
          · exact this
    · exact .refl rfl
    · exact kept_destroyVar _ _ _
  | sizeVar v =>
    unfold BlobLife.step
    dsimp only
    split
    · split
      · exact .refl rfl
      · split <;> exact .refl rfl
    · exact .refl rfl
    · exact .refl rfl

theorem kept_run : ∀ (os : List Op) {m t : Mach}, run m os = some t → Kept m t
  | [], _, _, e => by cases e; exact .refl rfl
  | o :: os, m, t, e => by
    have h1 := kept_step m o
    unfold BlobLife.run at e
    split at e
    · cases e
    · next m' r _ he => rw [he] at h1; exact h1.trans (kept_run os e)

theorem run_append : ∀ (as : List Op) {m t : Mach} {bs : List Op}, run m (as ++ bs) = some t → ∃ m', run m as = some m' ∧ run m' bs = some t
  | [], m, _, _, h => ⟨m, rfl, h⟩
  | a :: as, m, t, bs, h => by
    rw [List.cons_append] at h
    unfold BlobLife.run at h
    rw [BlobLife.run.eq_2]
    split at h
    · cases h
    · next m' r hn he =>
      obtain ⟨k, h1, h2⟩ := run_append as h
      exact ⟨k, h1, h2⟩

/-! ## The theorems -/

section
variable {n k : Nat} {m : Mach}

/-- C109: in every program, whatever allocations fail: the free function of a blob was not called while anything holds the blob, and was called
exactly once for each of its buffers, in order and with its context, when nothing does.  It is called for nothing else. -/
theorem buffers_released {os : List Op} (h : run (.init n k) os = some m) :
    (∀ (b : Nat) (o : Obj), m.blobs[b]? = some o →
      (Held m b → m.calls.filter (fun c => c.blob = b) = []) ∧
      (¬ Held m b → m.calls.filter (fun c => c.blob = b) = match o.free with
        | none => []
        | some f => o.iov.map fun v => ⟨b, f, v.base⟩)) ∧
    ∀ c ∈ m.calls, ∃ o, m.blobs[c.blob]? = some o := by
  have hi : Inv m := Inv.run os (inv_init n k) h
  have hq : Quiet m := Quiet.run os ⟨rfl, rfl⟩ h
  refine ⟨fun b o ho => ?_, fun c hc => ?_⟩
  · have hc := hi.calls b
    rw [ho] at hc
    dsimp only at hc
    have hu := hi.uses b o ho
    refine ⟨fun hh => ?_, fun hh => ?_⟩
    · rw [hc, if_neg]
      have := (held_iff hi hq b).1 hh
      omega
    · rw [hc, if_pos]
      · rfl
      · have : ¬ 0 < holders m b := fun e => hh ((held_iff hi hq b).2 e)
        omega
  · cases e : m.blobs[c.blob]? with
    | some o => exact ⟨o, rfl⟩
    | none =>
      have := hi.calls c.blob
      rw [e] at this
      have hm : c ∈ m.calls.filter (fun d => d.blob = c.blob) := List.mem_filter.2 ⟨hc, by simp⟩
      rw [this] at hm
      cases hm

/-- C109: a blob made by a program at any time, followed through the rest of the program. -/
theorem created_blob {before after : List Op} {x : Nat} {iov : List Iov} {free : Option Free}
    (h : run (.init n k) (before ++ .create x iov free none :: after) = some m) : ∃ b uses, m.blobs[b]? = some ⟨uses, iov, free⟩ ∧
      (Held m b → m.calls.filter (fun c => c.blob = b) = []) ∧
      (¬ Held m b → m.calls.filter (fun c => c.blob = b) = match free with
        | none => []
        | some f => iov.map fun v => ⟨b, f, v.base⟩) := by
  have hall := (buffers_released h).1
  obtain ⟨m1, _, h2⟩ := run_append before h
  unfold run at h2
  have hs : step m1 (.create x iov free none) =
      (store { m1 with blobs := m1.blobs ++ [⟨1, iov, free⟩], temps := some m1.blobs.length :: m1.temps } x, .ok) := rfl
  rw [hs] at h2
  dsimp only at h2
  have hk := (kept_store { m1 with blobs := m1.blobs ++ [⟨1, iov, free⟩], temps := some m1.blobs.length :: m1.temps } x).trans (kept_run after h2)
  obtain ⟨u, hu⟩ := hk m1.blobs.length ⟨1, iov, free⟩ (by show (m1.blobs ++ [_])[_]? = _; simp)
  exact ⟨_, u, hu, hall _ _ hu⟩

/-- C109: looking into a blob through a pointer or a variant never looks into one that is gone; it is undefined exactly if there is no blob. -/
theorem access_safe {os : List Op} (h : run (.init n k) os = some m) :
    (∀ x, (step m (.use x)).2 = .ub ↔ m.ptrs[x]?.getD none = none) ∧
    (∀ x v, (step m (.getPtr x v)).2 = .ub ↔ m.vars[v]? = some .broken) ∧
    ∀ v, (step m (.sizeVar v)).2 = .ub ↔
      m.vars[v]? = some .broken ∨ ∃ i c, m.vars[v]? = some (.blob i) ∧ m.storages[i]? = some (c, none) := by
  have hi : Inv m := Inv.run os (inv_init n k) h
  have hlook : ∀ b, 0 < holders m b → ∃ o, look m (some b) = some o := by
    intro b hb
    have hlt := hi.ptr b hb
    have ho : m.blobs[b]? = some m.blobs[b] := List.getElem?_eq_getElem hlt
    refine ⟨m.blobs[b], ?_⟩
    unfold look
    dsimp only
    rw [ho]
    dsimp only
    rw [if_neg]
    rw [hi.uses b _ ho]
    omega
  have hin : ∀ (v i : Nat), m.vars[v]? = some (Cell.blob i) → ∃ c, m.storages[i]? = some c ∧ inside m i = some c.2 := by
    intro v i hv
    have hu : 0 < users m i := by
      have := count_pos' (Cell.blob i) hv
      unfold users; omega
    have hlt := hi.sto i hu
    have hc : m.storages[i]? = some m.storages[i] := List.getElem?_eq_getElem hlt
    refine ⟨m.storages[i], hc, ?_⟩
    unfold inside
    rw [hc]
    dsimp only
    rw [if_neg]
    rw [hi.suses i _ hc]
    omega
  refine ⟨fun x => ?_, fun x v => ?_, fun v => ?_⟩
  · unfold step
    dsimp only
    cases hp : m.ptrs[x]?.getD none with
    | none => exact ⟨fun _ => rfl, fun _ => rfl⟩
    | some b =>
      obtain ⟨o, ho⟩ := hlook b (ptr_pos hp)
      rw [ho]
      exact ⟨nofun, nofun⟩
  · unfold step
    dsimp only
    split
    · next i e =>
      obtain ⟨c, _, hc⟩ := hin v i e
      rw [hc, e]
      exact ⟨nofun, nofun⟩
    · next e => exact ⟨fun _ => e, fun _ => rfl⟩
    · next h1 h2 => exact ⟨nofun, fun e => absurd e h2⟩
  · unfold step
    dsimp only
    split
    · next i e =>
      obtain ⟨c, hc, hc'⟩ := hin v i e
      rw [hc']
      dsimp only
      cases hp : c.2 with
      | none =>
        refine ⟨fun _ => .inr ⟨i, c.1, e, by rw [hc, ← hp]⟩, fun _ => rfl⟩
      | some b =>
        obtain ⟨o, ho⟩ := hlook b (inside_pos (by rw [hc', hp]))
        rw [ho]
        refine ⟨nofun, ?_⟩
        rw [e]
        rintro (h | ⟨j, d, h, hd⟩)
        · cases h
        · cases h
          rw [hc] at hd
          rw [Option.some.inj hd] at hp
          cases hp
    · next e => exact ⟨fun _ => .inl e, fun _ => rfl⟩
    · next h1 h2 =>
      refine ⟨nofun, ?_⟩
      rintro (h | ⟨j, d, h, hd⟩)
      · exact absurd h h2
      · exact absurd h (h1 j)

end

/-! ## Memory of copies -/

/-- No allocation fails. -/
def Op.succeeds : Op → Prop
  | .create _ _ _ f => f = none
  | .copy _ _ _ f => f = none
  | .setVar _ _ f => f = false
  | .copyVar _ _ _ f f' => f = none ∧ f' = false
  | _ => True

/-- What was allocated belongs to a blob. -/
def Owns (m : Mach) : Prop := ∀ a ∈ m.owned, ∃ (b : Nat) (o : Obj), m.blobs[b]? = some o ∧ o.free = some mallocFree ∧ o.iov.map (·.base) = [a]

theorem Owns.kept {m m' : Mach} (h : Owns m) (hk : Kept m m') (ho : m'.owned = m.owned) : Owns m' := by
  intro a ha
  rw [ho] at ha
  obtain ⟨b, o, h1, h2, h3⟩ := h a ha
  obtain ⟨n, hn⟩ := hk b o h1
  exact ⟨b, _, hn, h2, h3⟩

theorem owned_drop (m : Mach) : (drop m).owned = m.owned := by
  unfold drop
  split
  · rfl
  · rfl
  · split
    · rfl
    · dsimp only; split <;> rfl
theorem owned_sdrop (m : Mach) : (sdrop m).owned = m.owned := by
  unfold sdrop
  split
  · rfl
  · split
    · rfl
    · split
      · exact owned_drop _
      · rfl
theorem owned_store (m : Mach) (x : Nat) : (store m x).owned = m.owned := by
  unfold store
  rw [owned_drop]
  unfold swap
  split <;> rfl
theorem owned_destroyVar (m : Mach) (v : Nat) (c : Cell) : (destroyVar m v c).owned = m.owned := by
  have ht : (take m v c).owned = m.owned := by unfold take; split <;> rfl
  unfold destroyVar
  split
  · rw [owned_sdrop, ht]
  · exact ht
theorem owned_put (m : Mach) (v : Nat) : (put m v).owned = m.owned := by
  unfold put
  split
  · rfl
  · exact owned_sdrop m
theorem owned_initVar (m : Mach) (v : Nat) (fails : Bool) : (initVar m v fails).1.owned = m.owned := by
  unfold initVar
  split
  · rfl
  · split
    · rw [owned_drop, owned_destroyVar]
    · rw [owned_drop, owned_put]
      exact owned_destroyVar _ _ _

theorem owns_makeCopy {m : Mach} (h : Owns m) (base : Nat) (iov : List Iov) :
    Owns (makeCopy m base iov none).1 ∧ (makeCopy m base iov none).2 = .ok := by
  refine ⟨?_, rfl⟩
  intro a ha
  have ha : a ∈ m.owned ++ [base] := ha
  rcases List.mem_append.1 ha with h1 | h1
  · obtain ⟨b, o, h1, h2, h3⟩ := h a h1
    obtain ⟨u, hu⟩ := kept_makeCopy m base iov none b o h1
    exact ⟨b, _, hu, h2, h3⟩
  · cases List.mem_singleton.1 h1
    exact ⟨m.blobs.length, ⟨1, [⟨base, totalLength (iov.map (·.len))⟩], some mallocFree⟩, by show (m.blobs ++ [_])[_]? = _; simp, rfl, rfl⟩

theorem owns_step {m : Mach} (h : Owns m) {o : Op} (hs : o.succeeds) : Owns (step m o).1 := by
  cases o with
  | create x iov free fails =>
    cases (hs : fails = none)
    exact h.kept (kept_step m _) (owned_store _ _)
  | copy x y base fails =>
    cases (hs : fails = none)
    unfold BlobLife.step
    dsimp only
    split
    · exact h
    · next o _ =>
      obtain ⟨h1, h2⟩ := owns_makeCopy h base o.iov
      split
      · next e => rw [e] at h1; exact h1.kept (kept_store _ _) (owned_store _ _)
      · exact h1
  | assign x y => exact h.kept (kept_step m _) (owned_store _ _)
  | reset x => exact h.kept (kept_step m _) (owned_store _ _)
  | use x => unfold BlobLife.step; dsimp only; split <;> exact h
  | setVar v x fails => exact h.kept (kept_step m _) (owned_initVar _ _ _)
  | assignVar v u =>
    have hk := kept_step m (.assignVar v u)
    unfold BlobLife.step at hk ⊢
    dsimp only at hk ⊢
    revert hk
    split
    · exact fun hk => h.kept hk ((owned_put _ _).trans (owned_destroyVar _ _ _))
    · exact fun hk => h.kept hk (owned_destroyVar _ _ _)
    · exact fun _ => h
  | clearVar v => exact h.kept (kept_step m _) (owned_destroyVar _ _ _)
  | getPtr x v =>
    have hk := kept_step m (.getPtr x v)
    unfold BlobLife.step at hk ⊢
    dsimp only at hk ⊢
    revert hk
    split
    · split
      · exact fun _ => h
      · exact fun hk => h.kept hk (owned_store _ _)
    · exact fun _ => h
    · exact fun _ => h
  | copyVar v u base fails fails' =>
    obtain ⟨rfl, rfl⟩ := (hs : fails = none ∧ fails' = false)
    unfold BlobLife.step
    dsimp only
    split
    · split
      · exact h
      · rw [if_neg (by decide)]
        exact h.kept ((kept_push _ _).trans (kept_initVar _ _ _)) (owned_initVar _ _ _)
      · split
        · exact h
        · next o _ =>
          obtain ⟨h1, h2⟩ := owns_makeCopy h base o.iov
          split
          · next e =>
            rw [e] at h1
            rw [if_neg (by decide)]
            exact h1.kept (kept_initVar _ _ _) (owned_initVar _ _ _)
          · exact h1
    · exact h
    · exact h.kept (kept_destroyVar _ _ _) (owned_destroyVar _ _ _)
  | sizeVar v =>
    unfold BlobLife.step
    dsimp only
    split
    · split
      · exact h
      · split <;> exact h
    · exact h
    · exact h

theorem owns_run : ∀ (os : List Op) {m t : Mach}, Owns m → (∀ o ∈ os, o.succeeds) → run m os = some t → Owns t
  | [], _, _, h, _, e => by cases e; exact h
  | o :: os, m, t, h, hs, e => by
    have h1 := owns_step h (hs o List.mem_cons_self)
    unfold BlobLife.run at e
    split at e
    · cases e
    · next m' r _ he =>
      rw [he] at h1
      exact owns_run os h1 (fun o ho => hs o (List.mem_cons_of_mem _ ho)) e

/-- C109: if no allocation fails, memory allocated for a copy belongs to a blob, and is freed (once) exactly if nothing holds that blob. -/
theorem copies_freed_partial {n k : Nat} {m : Mach} {os : List Op} (hs : ∀ o ∈ os, o.succeeds) (h : run (.init n k) os = some m) {a : Nat} (ha : a ∈ m.owned) :
    ∃ b, (Held m b → m.calls.filter (fun c => c.blob = b) = []) ∧ (¬ Held m b → m.calls.filter (fun c => c.blob = b) = [⟨b, mallocFree, a⟩]) := by
  obtain ⟨b, o, h1, h2, h3⟩ := owns_run os (m := .init n k) nofun hs h a ha
  obtain ⟨h4, h5⟩ := (buffers_released h).1 b o h1
  refine ⟨b, h4, fun hh => ?_⟩
  rw [h5 hh, h2]
  dsimp only
  have : o.iov.map (fun v => (⟨b, mallocFree, v.base⟩ : Call)) = (o.iov.map (·.base)).map fun x => ⟨b, mallocFree, x⟩ := by
    rw [List.map_map]; rfl
  rw [this, h3]
  rfl

/-! ## Cases, and findings -/

/-- Two buffers with a free function, held by a pointer and two variants, which let go one after the other; and a copy. -/
def exProgram : List Op := [.create 0 [⟨100, 3⟩, ⟨200, 4⟩] (some ⟨7, 9⟩) none, .setVar 0 0 false, .assignVar 1 0, .reset 0, .copyVar 2 1 300 none false, .clearVar 0]

/-- The variant still holds the blob; nothing was released. -/
example : ∃ m, run (.init 1 3) exProgram = some m ∧ m.calls = [] ∧ Held m 0 ∧ m.owned = [300] ∧ ∀ o ∈ exProgram, o.succeeds := by
  refine ⟨_, rfl, rfl, .inr ⟨0, 1, by decide, rfl⟩, rfl, ?_⟩
  intro o ho
  simp only [exProgram, List.mem_cons, List.not_mem_nil, or_false] at ho
  rcases ho with rfl | rfl | rfl | rfl | rfl | rfl <;> simp [Op.succeeds]

/-- Then it lets go as well: both buffers are released, and then the copy. -/
example : (run (.init 1 3) (exProgram ++ [.clearVar 1])).map (·.calls) = some [⟨0, ⟨7, 9⟩, 100⟩, ⟨0, ⟨7, 9⟩, 200⟩] ∧
    (run (.init 1 3) (exProgram ++ [.clearVar 1, .assignVar 2 1])).map (·.calls) =
      some [⟨0, ⟨7, 9⟩, 100⟩, ⟨0, ⟨7, 9⟩, 200⟩, ⟨1, mallocFree, 300⟩] := ⟨rfl, rfl⟩

/-- C109, finding: if `Create` throws, the caller cannot know whether the buffer was released: both happen. -/
theorem create_failure_false :
    step (.init 1 0) (.create 0 [⟨100, 3⟩] (some ⟨7, 9⟩) (some 0)) = (.init 1 0, .badAlloc) ∧
    (step (.init 1 0) (.create 0 [⟨100, 3⟩] (some ⟨7, 9⟩) (some 2))).2 = .badAlloc ∧
    (step (.init 1 0) (.create 0 [⟨100, 3⟩] (some ⟨7, 9⟩) (some 2))).1.calls = [⟨0, ⟨7, 9⟩, 100⟩] := ⟨rfl, rfl, rfl⟩

/-- C109, finding: if the `Blob` of a copy cannot be allocated, the memory for the bytes is lost: it belongs to no blob and is never freed. -/
theorem copy_leaks_false : ∃ m, run (.init 2 0) [.create 0 [⟨100, 3⟩] none none, .copy 1 0 300 (some 0), .reset 0, .reset 1] = some m ∧
    m.owned = [300] ∧ m.calls = [] ∧ m.ptrs = [none, none] := ⟨_, rfl, rfl, rfl, rfl⟩

/-- C109, finding: a variant can be given no blob (an empty pointer); its type is that of a blob, and `Size` of it is undefined. -/
theorem empty_blob_false : run (.init 1 1) [.setVar 0 0 false, .sizeVar 0] = none ∧
    (run (.init 1 1) [.setVar 0 0 false]).map (·.vars) = some [.blob 0] := ⟨rfl, rfl⟩

/-- C109, finding: if assigning a blob to a variant fails for lack of memory, the variant is left with a type and no value; reading it is undefined. -/
theorem failed_assignment_false : (run (.init 1 1) [.create 0 [⟨100, 3⟩] none none, .setVar 0 0 true]).map (·.vars) = some [.broken] ∧
    run (.init 1 1) [.create 0 [⟨100, 3⟩] none none, .setVar 0 0 true, .sizeVar 0] = none := ⟨rfl, rfl⟩

end Verif.BlobLife
