import Verif.Blob.Life
/-!
# C109: counters count, and free functions are called when they reach 0
-/

namespace Verif.BlobLife
open Verif Blob

/-- 1 or 0. -/
def ind (p : Prop) [Decidable p] : Nat := if p then 1 else 0

theorem count_set' {α : Type} [BEq α] [LawfulBEq α] [DecidableEq α] (b a : α) : ∀ (l : List α) (i : Nat) (x : α), l[i]? = some x →
    (l.set i a).count b + ind (x = b) = l.count b + ind (a = b)
  | y :: l, 0, x, h => by
    cases h
    simp only [List.set_cons_zero, List.count_cons, ind, beq_iff_eq]
    omega
  | y :: l, i + 1, x, h => by
    have := count_set' b a l i x h
    simp only [List.set_cons_succ, List.count_cons]
    omega

theorem count_pos' {α : Type} [BEq α] [LawfulBEq α] (b : α) {l : List α} {i : Nat} (h : l[i]? = some b) : 0 < l.count b :=
  List.count_pos_iff.2 (List.mem_of_getElem? h)

/-- The number of pointers to the blob. -/
def holders (m : Mach) (b : Nat) : Nat := m.ptrs.count (some b) + m.temps.count (some b) + (m.storages.map (·.2)).count (some b)

/-- The number of pointers to the storage. -/
def users (m : Mach) (i : Nat) : Nat := m.vars.count (.blob i) + m.stemps.count i

structure Inv (m : Mach) : Prop where
  uses : ∀ (b : Nat) (o : Obj), m.blobs[b]? = some o → o.uses = holders m b
  suses : ∀ (i : Nat) (c : Nat × Option Nat), m.storages[i]? = some c → c.1 = users m i
  ptr : ∀ b, 0 < holders m b → b < m.blobs.length
  sto : ∀ i, 0 < users m i → i < m.storages.length
  dead : ∀ (i : Nat) (c : Nat × Option Nat), m.storages[i]? = some c → c.1 = 0 → c.2 = none
  calls : ∀ b, m.calls.filter (fun c => c.blob = b) = match m.blobs[b]? with
    | some o => if o.uses = 0 then destroy b o else []
    | none => []

theorem inv_init (n k : Nat) : Inv (.init n k) := by
  have h1 : ∀ b, holders (.init n k) b = 0 := by
    intro b
    simp [holders, Mach.init, List.count_replicate]
  have h2 : ∀ b, users (.init n k) b = 0 := by
    intro b
    simp [users, Mach.init, List.count_replicate]
  refine ⟨nofun, nofun, ?_, ?_, nofun, fun _ => rfl⟩
  · intro b h; rw [h1] at h; cases h
  · intro b h; rw [h2] at h; cases h

theorem destroy_filter (b b' : Nat) (o : Obj) : (destroy b o).filter (fun c => c.blob = b') = if b = b' then destroy b o else [] := by
  unfold destroy
  split
  · split <;> rfl
  · split
    · next e => subst e; simp [List.filter_map, Function.comp_def, List.filter_eq_self.2]
    · next e => simp [List.filter_map, Function.comp_def, e]

theorem destroy_uses (b : Nat) (o : Obj) (n : Nat) : destroy b { o with uses := n } = destroy b o := rfl

theorem retain_getElem (bs : List Obj) (p : Option Nat) (b : Nat) :
    (retain bs p)[b]? = bs[b]?.map fun o => { o with uses := o.uses + ind (p = some b) } := by
  cases p with
  | none =>
    show bs[b]? = _
    cases bs[b]? <;> simp [ind]
  | some a =>
    show (bs.modify a _)[b]? = _
    rw [List.getElem?_modify]
    cases bs[b]? with
    | none => by_cases e : a = b <;> simp [e]
    | some o => by_cases e : a = b <;> simp [e, ind]

theorem retain_length (bs : List Obj) (p : Option Nat) : (retain bs p).length = bs.length := by
  cases p with
  | none => rfl
  | some a => simp [retain]

theorem ind_count (p q : Option Nat) (l : List (Option Nat)) : (p :: l).count q = l.count q + ind (p = q) := by
  simp [List.count_cons, ind]

/-- The calls stay right if no counter falls to 0 or rises from it. -/
theorem calls_same {bs bs' : List Obj} {cs : List Call} (h : ∀ b : Nat, cs.filter (fun c => c.blob = b) = match bs[b]? with
      | some o => if o.uses = 0 then destroy b o else []
      | none => [])
    (hb : ∀ b : Nat, bs'[b]? = none ∧ bs[b]? = none ∨ ∃ (o : Obj) (n : Nat), bs[b]? = some o ∧ bs'[b]? = some { o with uses := n } ∧ (o.uses = 0 ↔ n = 0)) :
    ∀ b : Nat, cs.filter (fun c => c.blob = b) = match bs'[b]? with
      | some o => if o.uses = 0 then destroy b o else []
      | none => [] := by
  intro b
  rw [h b]
  rcases hb b with ⟨e1, e2⟩ | ⟨o, n, e1, e2, e3⟩
  · rw [e1, e2]
  · rw [e1, e2]
    dsimp only
    by_cases e : o.uses = 0
    · rw [if_pos e, if_pos (e3.1 e)]; rfl
    · rw [if_neg e, if_neg fun h => e (e3.2 h)]

theorem Inv.push {m : Mach} (h : Inv m) {p : Option Nat} (hp : ∀ b, p = some b → 0 < holders m b) : Inv (push m p) := by
  have hh : ∀ b, holders (BlobLife.push m p) b = holders m b + ind (p = some b) := by
    intro b
    show m.ptrs.count _ + (p :: m.temps).count _ + (m.storages.map _).count _ = _
    rw [ind_count]
    unfold holders
    omega
  refine ⟨?_, h.suses, ?_, h.sto, h.dead, calls_same h.calls ?_⟩
  · intro b o ho
    have ho : (retain m.blobs p)[b]? = some o := ho
    rw [retain_getElem] at ho
    cases e : m.blobs[b]? with
    | none => rw [e] at ho; cases ho
    | some o' =>
      rw [e] at ho
      cases ho
      rw [hh]
      show o'.uses + _ = _
      rw [h.uses b o' e]
  · intro b hb
    show b < (retain m.blobs p).length
    rw [retain_length]
    rw [hh] at hb
    by_cases e : p = some b
    · exact h.ptr b (hp b e)
    · apply h.ptr b; simpa [ind, e] using hb
  · intro b
    show (retain m.blobs p)[b]? = none ∧ _ ∨ _
    cases e : m.blobs[b]? with
    | none => left; rw [retain_getElem, e]; exact ⟨rfl, rfl⟩
    | some o =>
      right
      refine ⟨o, o.uses + ind (p = some b), rfl, by show (retain m.blobs p)[b]? = _; rw [retain_getElem, e]; rfl, ?_⟩
      by_cases e' : p = some b
      · have := hp b e'
        rw [← h.uses b o e] at this
        simp only [ind, e', if_true]
        omega
      · simp [ind, e']

theorem Inv.drop {m : Mach} (h : Inv m) : Inv (drop m) := by
  unfold BlobLife.drop
  split
  · exact h
  · next ts e =>
    have hh : ∀ b, holders { m with temps := ts } b = holders m b := by
      intro b; unfold holders; rw [e, ind_count]; simp [ind]
    exact ⟨by intro b o ho; rw [hh]; exact h.uses b o ho, h.suses, by intro b hb; rw [hh] at hb; exact h.ptr b hb, h.sto, h.dead, h.calls⟩
  · next b ts e =>
    have hh : ∀ a, holders { m with temps := ts } a + ind (b = a) = holders m a := by
      intro a; unfold holders; rw [e, ind_count]; simp only [ind, Option.some.injEq]; omega
    have hpos : 0 < holders m b := by rw [← hh b]; simp [ind]
    have hlt := h.ptr b hpos
    split
    · next hn => rw [List.getElem?_eq_none_iff] at hn; omega
    · next o ho =>
      dsimp only
      have hu := h.uses b o ho
      have hget : ∀ a, (m.blobs.set b { o with uses := o.uses - 1 })[a]? = if b = a then some { o with uses := o.uses - 1 } else m.blobs[a]? := by
        intro a
        rw [List.getElem?_set]
        split
        · rfl
        · rfl
      have huses : ∀ a o', (m.blobs.set b { o with uses := o.uses - 1 })[a]? = some o' → o'.uses = holders { m with temps := ts } a := by
        intro a o' ho'
        rw [hget] at ho'
        have := hh a
        split at ho'
        · next e =>
          subst e
          cases ho'
          simp only [ind, if_true] at this
          show o.uses - 1 = _
          omega
        · next e =>
          rw [h.uses a o' ho', ← this]
          simp [ind, e]
      have hptr : ∀ a, 0 < holders { m with temps := ts } a → a < (m.blobs.set b { o with uses := o.uses - 1 }).length := by
        intro a ha
        rw [List.length_set]
        exact h.ptr a (by rw [← hh a]; omega)
      split
      · next h1 =>
        refine ⟨huses, h.suses, hptr, h.sto, h.dead, ?_⟩
        intro a
        show (m.calls ++ destroy b o).filter _ = match (m.blobs.set b { o with uses := o.uses - 1 })[a]? with
          | some o => if o.uses = 0 then destroy a o else []
          | none => []
        rw [List.filter_append, h.calls a, destroy_filter, hget]
        by_cases e : b = a
        · subst e
          rw [ho, if_pos rfl, if_pos rfl]
          dsimp only
          rw [if_neg (by omega), if_pos (by omega)]
          rfl
        · rw [if_neg e, if_neg e, List.append_nil]
      · next h1 =>
        refine ⟨huses, h.suses, hptr, h.sto, h.dead, calls_same h.calls ?_⟩
        intro a
        by_cases e : b = a
        · subst e
          right
          refine ⟨o, o.uses - 1, ho, by show (m.blobs.set b _)[b]? = _; rw [hget, if_pos rfl], ?_⟩
          omega
        · cases e' : m.blobs[a]? with
          | none => left; refine ⟨?_, rfl⟩; show (m.blobs.set b _)[a]? = _; rw [hget, if_neg e, e']
          | some o' => right; refine ⟨o', o'.uses, rfl, ?_, Iff.rfl⟩; show (m.blobs.set b _)[a]? = _; rw [hget, if_neg e, e']

theorem Inv.swap {m : Mach} (h : Inv m) (x : Nat) : Inv (swap m x) := by
  unfold BlobLife.swap
  split
  · next t ts p e1 e2 =>
    have hh : ∀ b, holders { m with temps := p :: ts, ptrs := m.ptrs.set x t } b = holders m b := by
      intro b
      have := count_set' (some b) t m.ptrs x p e2
      unfold holders
      rw [e1, ind_count, ind_count]
      dsimp only
      omega
    exact ⟨by intro b o ho; rw [hh]; exact h.uses b o ho, h.suses, by intro b hb; rw [hh] at hb; exact h.ptr b hb, h.sto, h.dead, h.calls⟩
  · exact h

theorem Inv.spush {m : Mach} (h : Inv m) {i : Nat} (hi : 0 < users m i) : Inv (spush m i) := by
  have hget : ∀ j, (m.storages.modify i fun c => (c.1 + 1, c.2))[j]? = m.storages[j]?.map fun c => (c.1 + ind (i = j), c.2) := by
    intro j
    rw [List.getElem?_modify]
    cases m.storages[j]? with
    | none => by_cases e : i = j <;> simp [e]
    | some c => by_cases e : i = j <;> simp [e, ind]
  have hmap : (m.storages.modify i fun c => (c.1 + 1, c.2)).map (·.2) = m.storages.map (·.2) := by
    apply List.ext_getElem?
    intro j
    rw [List.getElem?_map, List.getElem?_map, hget]
    cases m.storages[j]? <;> rfl
  have hh : ∀ b, holders (BlobLife.spush m i) b = holders m b := by
    intro b
    show _ + _ + ((m.storages.modify i _).map _).count _ = _
    rw [hmap]
    rfl
  have hu : ∀ j, users (BlobLife.spush m i) j = users m j + ind (i = j) := by
    intro j
    show m.vars.count _ + (i :: m.stemps).count j = _
    simp only [List.count_cons, users, ind, beq_iff_eq]
    omega
  refine ⟨by intro b o ho; rw [hh]; exact h.uses b o ho, ?_, by intro b hb; rw [hh] at hb; exact h.ptr b hb, ?_, ?_, h.calls⟩
  · intro j c hc
    have hc : (m.storages.modify i _)[j]? = some c := hc
    rw [hget] at hc
    cases e : m.storages[j]? with
    | none => rw [e] at hc; cases hc
    | some c' =>
      rw [e] at hc
      cases hc
      rw [hu, ← h.suses j c' e]
  · intro j hj
    show j < (m.storages.modify i _).length
    rw [List.length_modify]
    rw [hu] at hj
    by_cases e : i = j
    · subst e; exact h.sto i hi
    · apply h.sto j; simpa [ind, e] using hj
  · intro j c hc h0
    have hc : (m.storages.modify i _)[j]? = some c := hc
    rw [hget] at hc
    cases e : m.storages[j]? with
    | none => rw [e] at hc; cases hc
    | some c' =>
      rw [e] at hc
      cases hc
      exact h.dead j c' e (by simp at h0; exact h0.1)

theorem Inv.sdrop {m : Mach} (h : Inv m) : Inv (sdrop m) := by
  unfold BlobLife.sdrop
  split
  · exact h
  · next i is e =>
    have hu : ∀ j, users { m with stemps := is } j + ind (i = j) = users m j := by
      intro j; unfold users; rw [e]; simp only [List.count_cons, ind, beq_iff_eq]; omega
    have hpos : 0 < users m i := by rw [← hu i]; simp [ind]
    have hlt := h.sto i hpos
    split
    · next hn => rw [List.getElem?_eq_none_iff] at hn; omega
    · next c hc =>
      have hcu := h.suses i c hc
      have hget : ∀ (d : Nat × Option Nat) j, (m.storages.set i d)[j]? = if i = j then some d else m.storages[j]? := by
        intro d j
        rw [List.getElem?_set]
        split
        · rfl
        · rfl
      have hcount : ∀ (d : Nat × Option Nat) b, ((m.storages.set i d).map (·.2)).count (some b) + ind (c.2 = some b) =
          (m.storages.map (·.2)).count (some b) + ind (d.2 = some b) := by
        intro d b
        rw [List.map_set]
        exact count_set' (some b) d.2 (m.storages.map (·.2)) i c.2 (by rw [List.getElem?_map, hc]; rfl)
      have hsto : ∀ (d : Nat × Option Nat) j, 0 < users { m with stemps := is } j → j < (m.storages.set i d).length := by
        intro d j hj
        rw [List.length_set]
        exact h.sto j (by rw [← hu j]; omega)
      split
      · next h1 =>
        apply Inv.drop
        have hh : ∀ b, holders { m with stemps := is, storages := m.storages.set i (0, none), temps := c.2 :: m.temps } b = holders m b := by
          intro b
          have := hcount (0, none) b
          unfold holders
          rw [ind_count]
          simp only [ind, reduceCtorEq, if_false] at this ⊢
          omega
        refine ⟨by intro b o ho; rw [hh]; exact h.uses b o ho, ?_, by intro b hb; rw [hh] at hb; exact h.ptr b hb, hsto _, ?_, h.calls⟩
        · intro j c' hc'
          have hd : (m.storages.set i (0, none))[j]? = some c' := hc'
          rw [hget] at hd
          have := hu j
          show c'.1 = users { m with stemps := is } j
          split at hd
          · next e => subst e; rw [← Option.some.inj hd]; simp only [ind, if_true] at this; show 0 = _; omega
          · next e => rw [h.suses j c' hd, ← this]; simp [ind, e]
        · intro j c' hc' h0
          have hd : (m.storages.set i (0, none))[j]? = some c' := hc'
          rw [hget] at hd
          split at hd
          · rw [← Option.some.inj hd]
          · exact h.dead j c' hd h0
      · next h1 =>
        have hh : ∀ b, holders { m with stemps := is, storages := m.storages.set i (c.1 - 1, c.2) } b = holders m b := by
          intro b
          have := hcount (c.1 - 1, c.2) b
          unfold holders
          dsimp only at this ⊢
          omega
        refine ⟨by intro b o ho; rw [hh]; exact h.uses b o ho, ?_, by intro b hb; rw [hh] at hb; exact h.ptr b hb, hsto _, ?_, h.calls⟩
        · intro j c' hc'
          have hd : (m.storages.set i (c.1 - 1, c.2))[j]? = some c' := hc'
          rw [hget] at hd
          have := hu j
          show c'.1 = users { m with stemps := is } j
          split at hd
          · next e => subst e; rw [← Option.some.inj hd]; simp only [ind, if_true] at this; show c.1 - 1 = _; omega
          · next e => rw [h.suses j c' hd, ← this]; simp [ind, e]
        · intro j c' hc' h0
          have hd : (m.storages.set i (c.1 - 1, c.2))[j]? = some c' := hc'
          rw [hget] at hd
          split at hd
          · next e => subst e; rw [← Option.some.inj hd] at h0; dsimp only at h0; omega
          · exact h.dead j c' hd h0

/-- The numbers of users stay the same. -/
theorem Inv.sameUsers {m : Mach} (h : Inv m) {vs : List Cell} {ss : List Nat} (hu : ∀ i, users { m with vars := vs, stemps := ss } i = users m i) :
    Inv { m with vars := vs, stemps := ss } :=
  ⟨h.uses, by intro i c hc; rw [hu]; exact h.suses i c hc, h.ptr, by intro i hi; rw [hu] at hi; exact h.sto i hi, h.dead, h.calls⟩

theorem Inv.take {m : Mach} (h : Inv m) (v : Nat) {now : Cell} (hn : ∀ i, now ≠ .blob i) : Inv (take m v now) := by
  have h0 : ∀ i, ind (now = Cell.blob i) = 0 := fun i => if_neg (hn i)
  unfold BlobLife.take
  split
  · next i e =>
    refine h.sameUsers fun j => ?_
    have := count_set' (Cell.blob j) now m.vars v _ e
    unfold users
    simp only [List.count_cons, ind, beq_iff_eq, Cell.blob.injEq, hn j, if_false] at this ⊢
    omega
  · next c hc e =>
    refine h.sameUsers (ss := m.stemps) fun j => ?_
    have := count_set' (Cell.blob j) now m.vars v _ e
    have hb : c ≠ Cell.blob j := fun e => hc j e
    unfold users
    simp only [ind, hn j, hb, if_false] at this ⊢
    omega
  · exact h

theorem Inv.put {m : Mach} (h : Inv m) (v : Nat) : Inv (put m v) := by
  unfold BlobLife.put
  split
  · next i is e1 e2 =>
    refine h.sameUsers fun j => ?_
    have := count_set' (Cell.blob j) (.blob i) m.vars v _ e2
    unfold users
    rw [e1]
    simp only [List.count_cons, ind, beq_iff_eq, Cell.blob.injEq, reduceCtorEq, if_false] at this ⊢
    omega
  · exact h.sdrop

theorem Inv.destroyVar {m : Mach} (h : Inv m) (v : Nat) {now : Cell} (hn : ∀ i, now ≠ .blob i) : Inv (destroyVar m v now) := by
  unfold BlobLife.destroyVar
  split
  · exact (h.take v hn).sdrop
  · exact h.take v hn

/-! ## New blobs -/

theorem Inv.makeBlob {m : Mach} (h : Inv m) (iov : List Iov) (free : Option Free) (fails : Option Nat) : Inv (makeBlob m iov free fails).1 := by
  have hget : ∀ (o : Obj) b, (m.blobs ++ [o])[b]? = if b = m.blobs.length then some o else m.blobs[b]? := by
    intro o b
    by_cases e : b < m.blobs.length
    · rw [List.getElem?_append_left e, if_neg (by omega)]
    · rw [List.getElem?_append_right (by omega)]
      by_cases e' : b = m.blobs.length
      · rw [if_pos e', e']; simp
      · rw [if_neg e', List.getElem?_eq_none (by simp; omega), List.getElem?_eq_none (by omega)]
  have hfresh : holders m m.blobs.length = 0 := by
    have := h.ptr m.blobs.length
    omega
  have hnone : m.calls.filter (fun c => c.blob = m.blobs.length) = [] := by
    rw [h.calls, List.getElem?_eq_none (Nat.le_refl _)]
  unfold BlobLife.makeBlob
  split
  · have hh : ∀ b, holders { m with blobs := m.blobs ++ [⟨1, iov, free⟩], temps := some m.blobs.length :: m.temps } b = holders m b + ind (m.blobs.length = b) := by
      intro b
      unfold holders
      rw [ind_count]
      simp only [ind, Option.some.injEq]
      omega
    refine ⟨?_, h.suses, ?_, h.sto, h.dead, ?_⟩
    · intro b o ho
      have ho : (m.blobs ++ [_])[b]? = some o := ho
      rw [hget] at ho
      rw [hh]
      split at ho
      · next e => cases ho; subst e; rw [hfresh]; simp [ind]
      · next e => rw [h.uses b o ho]; simp [ind, Ne.symm e]
    · intro b hb
      show b < (m.blobs ++ [_]).length
      rw [hh] at hb
      rw [List.length_append]
      by_cases e : m.blobs.length = b
      · subst e; simp
      · have := h.ptr b (by simpa [ind, e] using hb)
        simp; omega
    · intro b
      show m.calls.filter _ = match (m.blobs ++ [_])[b]? with
        | some o => if o.uses = 0 then destroy b o else []
        | none => []
      rw [hget]
      split
      · next o ho =>
        split at ho
        · next e => cases ho; subst e; rw [hnone]; rfl
        · next e => rw [h.calls, ho]
      · next ho =>
        split at ho
        · cases ho
        · rw [h.calls, ho]
  · refine ⟨?_, h.suses, ?_, h.sto, h.dead, ?_⟩
    · intro b o ho
      have ho : (m.blobs ++ [_])[b]? = some o := ho
      rw [hget] at ho
      show o.uses = holders m b
      split at ho
      · next e => cases ho; subst e; rw [hfresh]
      · next e => exact h.uses b o ho
    · intro b hb
      show b < (m.blobs ++ [_]).length
      have := h.ptr b hb
      simp; omega
    · intro b
      show (m.calls ++ destroy m.blobs.length _).filter _ = match (m.blobs ++ [_])[b]? with
        | some o => if o.uses = 0 then destroy b o else []
        | none => []
      rw [hget, List.filter_append, destroy_filter]
      by_cases e : b = m.blobs.length
      · rw [if_pos e, e, hnone, if_pos rfl]; rfl
      · rw [if_neg e, if_neg (Ne.symm e), List.append_nil, h.calls]
  · exact h

theorem Inv.owned {m : Mach} (h : Inv m) (bs : List Nat) : Inv { m with owned := bs } := ⟨h.uses, h.suses, h.ptr, h.sto, h.dead, h.calls⟩

theorem Inv.makeCopy {m : Mach} (h : Inv m) (base : Nat) (iov : List Iov) (fails : Option Nat) : Inv (makeCopy m base iov fails).1 := by
  unfold BlobLife.makeCopy
  split
  · exact h
  · exact (h.owned _).makeBlob _ _ _

theorem Inv.store {m : Mach} (h : Inv m) (x : Nat) : Inv (store m x) := (h.swap x).drop

/-- A new storage with a copy of a pointer. -/
theorem Inv.newStorage {m : Mach} (h : Inv m) {p : Option Nat} (hp : ∀ b, p = some b → 0 < holders m b) :
    Inv { m with storages := m.storages ++ [(1, p)], blobs := retain m.blobs p, stemps := m.storages.length :: m.stemps } := by
  have h1 := h.push hp
  have hfresh : users m m.storages.length = 0 := by
    have := h.sto m.storages.length
    omega
  have hget : ∀ (o : Nat × Option Nat) b, (m.storages ++ [o])[b]? = if b = m.storages.length then some o else m.storages[b]? := by
    intro o b
    by_cases e : b < m.storages.length
    · rw [List.getElem?_append_left e, if_neg (by omega)]
    · rw [List.getElem?_append_right (by omega)]
      by_cases e' : b = m.storages.length
      · rw [if_pos e', e']; simp
      · rw [if_neg e', List.getElem?_eq_none (by simp; omega), List.getElem?_eq_none (by omega)]
  have hh : ∀ b, holders { m with storages := m.storages ++ [(1, p)], blobs := retain m.blobs p, stemps := m.storages.length :: m.stemps } b =
      holders (BlobLife.push m p) b := by
    intro b
    show _ + _ + ((m.storages ++ [(1, p)]).map _).count _ = m.ptrs.count _ + (p :: m.temps).count _ + _
    rw [List.map_append, List.count_append, ind_count]
    simp only [List.map_cons, List.map_nil, List.count_cons, List.count_nil, ind, beq_iff_eq, BlobLife.push]
    omega
  have hu : ∀ j, users { m with storages := m.storages ++ [(1, p)], blobs := retain m.blobs p, stemps := m.storages.length :: m.stemps } j =
      users m j + ind (m.storages.length = j) := by
    intro j
    unfold users
    simp only [List.count_cons, ind, beq_iff_eq]
    omega
  refine ⟨by intro b o ho; rw [hh]; exact h1.uses b o ho, ?_, by intro b hb; rw [hh] at hb; exact h1.ptr b hb, ?_, ?_, h1.calls⟩
  · intro j c hc
    have hc : (m.storages ++ [_])[j]? = some c := hc
    rw [hget] at hc
    rw [hu]
    split at hc
    · next e => cases hc; subst e; rw [hfresh]; simp [ind]
    · next e => rw [h.suses j c hc]; simp [ind, Ne.symm e]
  · intro j hj
    show j < (m.storages ++ [_]).length
    rw [hu] at hj
    by_cases e : m.storages.length = j
    · subst e; simp
    · have := h.sto j (by simpa [ind, e] using hj)
      simp; omega
  · intro j c hc h0
    have hc : (m.storages ++ [_])[j]? = some c := hc
    rw [hget] at hc
    split at hc
    · cases hc; cases h0
    · exact h.dead j c hc h0

/-- Dropping keeps what is below. -/
theorem drop_temps {m : Mach} {p : Option Nat} {ts : List (Option Nat)} (h : m.temps = p :: ts) : (drop m).temps = ts := by
  unfold drop
  rw [h]
  cases p with
  | none => rfl
  | some b =>
    dsimp only
    split
    · rfl
    · split <;> rfl

theorem sdrop_temps (m : Mach) : (sdrop m).temps = m.temps := by
  unfold sdrop
  split
  · rfl
  · split
    · rfl
    · split
      · exact drop_temps rfl
      · rfl

theorem take_temps (m : Mach) (v : Nat) (c : Cell) : (take m v c).temps = m.temps := by
  unfold take; split <;> rfl

theorem destroyVar_temps (m : Mach) (v : Nat) (c : Cell) : (destroyVar m v c).temps = m.temps := by
  unfold destroyVar
  split
  · rw [sdrop_temps, take_temps]
  · exact take_temps m v c

theorem Inv.initVar {m : Mach} (h : Inv m) (v : Nat) (fails : Bool) : Inv (initVar m v fails).1 := by
  unfold BlobLife.initVar
  split
  · exact h
  · next p ts e =>
    split
    · exact (h.destroyVar v (fun _ e => by cases e)).drop
    · have h1 := h.destroyVar (now := .other) v (fun _ e => by cases e)
      refine ((h1.newStorage fun b hb => ?_).put v).drop
      unfold holders
      rw [destroyVar_temps, e, hb, ind_count]
      simp [ind]
      omega

theorem ptr_pos {m : Mach} {x b : Nat} (h : m.ptrs[x]?.getD none = some b) : 0 < holders m b := by
  cases e : m.ptrs[x]? with
  | none => rw [e] at h; cases h
  | some p =>
    rw [e] at h
    cases (h : p = some b)
    have := count_pos' (some b) e
    unfold holders
    omega

theorem inside_pos {m : Mach} {i b : Nat} (h : inside m i = some (some b)) : 0 < holders m b := by
  unfold inside at h
  split at h
  · cases h
  · next c e =>
    split at h
    · cases h
    · cases h' : c.2 with
      | none => rw [h'] at h; cases h
      | some b' =>
        rw [h'] at h; cases h
        have := count_pos' (some b) (l := m.storages.map (·.2)) (i := i) (by rw [List.getElem?_map, e]; exact congrArg some h')
        unfold holders
        omega

/-- Every operation. -/
theorem Inv.step {m : Mach} (h : Inv m) (o : Op) : Inv (step m o).1 := by
  cases o with
  | create x iov free fails =>
    have := h.makeBlob iov free fails
    unfold BlobLife.step
    dsimp only
    split
    · next e => rw [e] at this; exact this.store x
    · exact this
  | copy x y base fails =>
    unfold BlobLife.step
    dsimp only
    split
    · exact h
    · next o _ =>
      have := h.makeCopy base o.iov fails
      split
      · next e => rw [e] at this; exact this.store x
      · exact this
  | assign x y => exact (h.push fun _ hb => ptr_pos hb).store x
  | reset x => exact (h.push fun _ e => by cases e).store x
  | use x => unfold BlobLife.step; dsimp only; split <;> exact h
  | setVar v x fails => exact (h.push fun _ hb => ptr_pos hb).initVar v fails
  | assignVar v u =>
    unfold BlobLife.step
    dsimp only
    split
    · next i e =>
      refine ((h.spush ?_).destroyVar v (fun _ e => by cases e)).put v
      have := count_pos' (Cell.blob i) e
      unfold users
      omega
    · next c hc _ => exact h.destroyVar v fun i e => hc i e
    · exact h
  | clearVar v => exact h.destroyVar v (fun _ e => by cases e)
  | getPtr x v =>
    unfold BlobLife.step
    dsimp only
    split
    · split
      · exact h
      · next p e => exact (h.push fun b hb => inside_pos (by rw [e, hb])).store x
    · exact h
    · exact h
  | copyVar v u base fails fails' =>
    unfold BlobLife.step
    dsimp only
    split
    · split
      · exact h
      · split
        · exact h
        · exact (h.push fun _ e => by cases e).initVar v false
      · split
        · exact h
        · next o _ =>
          have := h.makeCopy base o.iov fails
          split
          · next e =>
            rw [e] at this
            split
            · exact this.drop
            · exact this.initVar v false
          · exact this
    · exact h
    · exact h.destroyVar v (fun _ e => by cases e)
  | sizeVar v =>
    unfold BlobLife.step
    dsimp only
    split
    · split
      · exact h
      · split <;> exact h
    · exact h
    · exact h

theorem Inv.run : ∀ (os : List Op) {m t : Mach}, Inv m → run m os = some t → Inv t
  | [], _, _, h, e => by cases e; exact h
  | o :: os, m, t, h, e => by
    have h1 := h.step o
    unfold BlobLife.run at e
    split at e
    · cases e
    · next m' r _ he => rw [he] at h1; exact Inv.run os h1 e

end Verif.BlobLife
