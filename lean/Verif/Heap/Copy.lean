import Verif.Heap.Inv
/-!
# A deep copy reads as the original
-/

namespace Verif.Heap
open Verif

/-- What is seen at `p` below the slot `s`. -/
def see (cs : List Cell) (s : Slot) (p : VPath) : Option Obs :=
  (hget ⟨cs, fun _ => .null⟩ s p).bind (look ⟨cs, fun _ => .null⟩)

theorem look_env (cs : List Cell) (e e' : Nat → Slot) (s : Slot) : look ⟨cs, e⟩ s = look ⟨cs, e'⟩ s := by
  cases s <;> rfl

theorem childLoc_env (cs : List Cell) (e e' : Nat → Slot) (s : Slot) (x : PathElem) :
    childLoc ⟨cs, e⟩ s x = childLoc ⟨cs, e'⟩ s x := by
  cases s <;> cases x <;> rfl

theorem childLoc_ne_var {σ : St} {s : Slot} {e : PathElem} {x : Nat} :
    childLoc σ s e ≠ some (.var x) := by
  intro h
  simp only [childLoc] at h
  split at h
  · split at h
    · split at h <;> cases h
    · cases h
  · split at h
    · split at h <;> cases h
    · cases h
  · cases h

theorem see_eq (σ : St) (s : Slot) (p : VPath) :
    (hget σ s p).bind (look σ) = see σ.cells s p := by
  obtain ⟨cs, env⟩ := σ
  simp only [see]
  induction p generalizing s with
  | nil => simp only [hget, Option.bind_some]; exact look_env ..
  | cons e p ih =>
    simp only [hget]
    rw [childLoc_env cs env (fun _ => .null)]
    cases h : childLoc ⟨cs, fun _ => .null⟩ s e with
    | none => rfl
    | some l =>
      have : St.rd ⟨cs, env⟩ l = St.rd ⟨cs, fun _ => .null⟩ l := by
        cases l with
        | var x => exact absurd h childLoc_ne_var
        | elem a i => rfl
        | entry a k => rfl
      simp only [this]
      cases St.rd ⟨cs, fun _ => .null⟩ l with
      | none => rfl
      | some t => exact ih t

theorem obs_eq_see (σ : St) (x : Nat) (p : VPath) : obs σ x p = see σ.cells (σ.env x) p :=
  see_eq σ _ p

/-- All slots in cells point to existing cells. -/
def ClosedC (cs : List Cell) : Prop :=
  ∀ (a : Nat) (c : Cell), cs[a]? = some c → ∀ s ∈ c.slots, ∀ b, s.addr = some b → b < cs.length

theorem see_cons_list {cs : List Cell} {a : Nat} {ss : List Slot} (h : cs[a]? = some (.list ss))
    (e : PathElem) (p : VPath) :
    see cs (.list a) (e :: p) = (match e with
      | .index i => match ss[i.toNat]? with
        | some t => see cs t p
        | none => none
      | .key _ => none) := by
  cases e with
  | key k => simp [see, hget, childLoc]
  | index i =>
    simp only [see, hget, childLoc, h]
    by_cases hi : i.toNat < ss.length
    · simp only [if_pos hi, St.rd, h, List.getElem?_eq_getElem hi]
    · simp only [if_neg hi, List.getElem?_eq_none (Nat.le_of_not_lt hi)]; rfl

theorem see_cons_map {cs : List Cell} {a : Nat} {m : List (Bytes × Slot)} (h : cs[a]? = some (.map m))
    (e : PathElem) (p : VPath) :
    see cs (.map a) (e :: p) = (match e with
      | .key k => match AMap.get m k with
        | some t => see cs t p
        | none => none
      | .index _ => none) := by
  cases e with
  | index k => simp [see, hget, childLoc]
  | key k =>
    simp only [see, hget, childLoc, h]
    cases hg : AMap.get m k with
    | none => rfl
    | some t => simp [St.rd, h, hg]

theorem see_scalar {cs cs' : List Cell} {s : Slot} (h : s.addr = none) (p : VPath) :
    see cs s p = see cs' s p := by
  cases s <;> simp only [Slot.addr] at h <;>
    first
    | (cases p with
       | nil => rfl
       | cons e p => cases e <;> rfl)
    | cases h

theorem see_leaf_cons {cs : List Cell} {s : Slot} (e : PathElem) (p : VPath)
    (h : ∀ a, s ≠ .list a ∧ s ≠ .map a) : see cs s (e :: p) = none := by
  have : childLoc ⟨cs, fun _ => .null⟩ s e = none := by
    simp only [childLoc]
    split
    · exact absurd rfl (h _).1
    · exact absurd rfl (h _).2
    · rfl
  simp [see, hget, this]

/-- Adding cells changes nothing that is seen. -/
theorem see_append {cs : List Cell} (hc : ClosedC cs) (ext : List Cell) (s : Slot)
    (hs : ∀ a, s.addr = some a → a < cs.length) (p : VPath) : see (cs ++ ext) s p = see cs s p := by
  induction p generalizing s with
  | nil =>
    simp only [see, hget, Option.bind_some]
    cases s <;> simp only [look] <;> rw [List.getElem?_append_left (hs _ rfl)]
  | cons e p ih =>
    cases s with
    | list a =>
      have ha := hs a rfl
      obtain ⟨c, hca⟩ : ∃ c, cs[a]? = some c := ⟨_, List.getElem?_eq_getElem ha⟩
      have hca' : (cs ++ ext)[a]? = some c := by rw [List.getElem?_append_left ha]; exact hca
      cases c with
      | list ss =>
        rw [see_cons_list hca, see_cons_list hca']
        cases e with
        | key _ => rfl
        | index i =>
          simp only
          cases hg : ss[i.toNat]? with
          | none => rfl
          | some t => exact ih t (fun b hb => hc a _ hca t (List.mem_of_getElem? hg) b hb)
      | str _ => cases e <;> simp [see, hget, childLoc, hca, hca']
      | map _ => cases e <;> simp [see, hget, childLoc, hca, hca']
      | blob _ => cases e <;> simp [see, hget, childLoc, hca, hca']
    | map a =>
      have ha := hs a rfl
      obtain ⟨c, hca⟩ : ∃ c, cs[a]? = some c := ⟨_, List.getElem?_eq_getElem ha⟩
      have hca' : (cs ++ ext)[a]? = some c := by rw [List.getElem?_append_left ha]; exact hca
      cases c with
      | map m =>
        rw [see_cons_map hca, see_cons_map hca']
        cases e with
        | index _ => rfl
        | key k =>
          simp only
          cases hg : AMap.get m k with
          | none => rfl
          | some t => exact ih t (fun b hb => hc a _ hca t (slots_map_mem (AMap.get_mem hg)) b hb)
      | str _ => cases e <;> simp [see, hget, childLoc, hca, hca']
      | list _ => cases e <;> simp [see, hget, childLoc, hca, hca']
      | blob _ => cases e <;> simp [see, hget, childLoc, hca, hca']
    | null => rw [see_leaf_cons _ _ (by simp), see_leaf_cons _ _ (by simp)]
    | bool _ => rw [see_leaf_cons _ _ (by simp), see_leaf_cons _ _ (by simp)]
    | int _ => rw [see_leaf_cons _ _ (by simp), see_leaf_cons _ _ (by simp)]
    | uint _ => rw [see_leaf_cons _ _ (by simp), see_leaf_cons _ _ (by simp)]
    | flt _ => rw [see_leaf_cons _ _ (by simp), see_leaf_cons _ _ (by simp)]
    | str _ => rw [see_leaf_cons _ _ (by simp), see_leaf_cons _ _ (by simp)]
    | blob _ => rw [see_leaf_cons _ _ (by simp), see_leaf_cons _ _ (by simp)]

theorem newCells_closedC {cs cs' : List Cell} (hc : ClosedC cs) (hn : NewCells cs cs') :
    ClosedC cs' := by
  obtain ⟨ext, rfl, p⟩ := hn
  intro a c h s hs b hb
  by_cases hlt : a < cs.length
  · rw [List.getElem?_append_left hlt] at h
    have := hc a c h s hs b hb
    simp; omega
  · rw [List.getElem?_append_right (by omega)] at h
    exact (p c (List.mem_of_getElem? h) s hs b hb).2

theorem newCells_see {cs cs' : List Cell} (hc : ClosedC cs) (hn : NewCells cs cs') (s : Slot)
    (hs : ∀ a, s.addr = some a → a < cs.length) (p : VPath) : see cs' s p = see cs s p := by
  obtain ⟨ext, rfl, _⟩ := hn
  exact see_append hc ext s hs p

/-- Copying is right for one slot. -/
def CopyRight (f : List Cell → Slot → Option (List Cell × Slot)) : Prop :=
  ∀ cs s cs' s', f cs s = some (cs', s') → ClosedC cs → (∀ a, s.addr = some a → a < cs.length) →
    ∀ p, see cs' s' p = see cs s p

theorem copyAll_see {f : List Cell → Slot → Option (List Cell × Slot)}
    (hn : ∀ cs s cs' s', f cs s = some (cs', s') → NewCells cs cs' ∧ NewSlot cs cs' s')
    (hf : CopyRight f) : ∀ ss cs cs' ss', copyAll f cs ss = some (cs', ss') → ClosedC cs →
      (∀ s ∈ ss, ∀ a, s.addr = some a → a < cs.length) →
      ss'.length = ss.length ∧
      ∀ (i : Nat) (s s' : Slot), ss[i]? = some s → ss'[i]? = some s' → ∀ p, see cs' s' p = see cs s p := by
  intro ss
  induction ss with
  | nil => intro cs cs' ss' h _ _; simp only [copyAll] at h; cases h; simp
  | cons s ss ih =>
    intro cs cs' ss' h hc hs
    simp only [copyAll] at h
    split at h
    · cases h
    · next cs1 s1 h1 =>
      split at h
      · cases h
      · next cs2 ss2 h2 =>
        cases h
        have ⟨a1, a2⟩ := hn _ _ _ _ h1
        have ⟨b1, b2, b3⟩ := copyAll_new hn _ _ _ _ h2
        have hc1 := newCells_closedC hc a1
        have hs1 : ∀ t ∈ ss, ∀ a, t.addr = some a → a < cs1.length := fun t ht a ha =>
          Nat.lt_of_lt_of_le (hs t (by simp [ht]) a ha) a1.len
        have ⟨c1, c2⟩ := ih _ _ _ h2 hc1 hs1
        refine ⟨by simp [b3], ?_⟩
        intro i t t' ht ht' p
        cases i with
        | zero =>
          simp only [List.getElem?_cons_zero, Option.some.injEq] at ht ht'
          subst ht ht'
          rw [newCells_see hc1 b1 s1 (fun a ha => (a2 a ha).2)]
          exact hf _ _ _ _ h1 hc (hs s (by simp)) p
        | succ i =>
          simp only [List.getElem?_cons_succ] at ht ht'
          rw [c2 i t t' ht ht' p]
          exact newCells_see hc a1 t (hs t (by simp [List.mem_of_getElem? ht])) p

theorem get_zip {ks : List Bytes} {ss ts : List Slot} (h1 : ks.length = ss.length)
    (h2 : ts.length = ss.length) (k : Bytes) :
    (AMap.get (ks.zip ss) k = none ∧ AMap.get (ks.zip ts) k = none) ∨
    ∃ (i : Nat) (s t : Slot), ss[i]? = some s ∧ ts[i]? = some t ∧ AMap.get (ks.zip ss) k = some s
      ∧ AMap.get (ks.zip ts) k = some t := by
  induction ks generalizing ss ts with
  | nil => left; simp [AMap.get]
  | cons k' ks ih =>
    cases ss with
    | nil => simp at h1
    | cons s ss =>
      cases ts with
      | nil => simp at h2
      | cons t ts =>
        simp only [List.zip_cons_cons, AMap.get]
        by_cases hk : k' = k
        · right; refine ⟨0, s, t, ?_⟩; simp [hk]
        · simp only [if_neg hk]
          rcases ih (ss := ss) (ts := ts) (by simpa using h1) (by simpa using h2) with h | ⟨i, s', t', h⟩
          · exact Or.inl h
          · right; exact ⟨i + 1, s', t', by simpa using h⟩

theorem zip_fst_snd (m : List (Bytes × Slot)) : (m.map (·.1)).zip (m.map (·.2)) = m := by
  induction m with
  | nil => rfl
  | cons p m ih => simp [ih]

theorem hcopy_see (n : Nat) : CopyRight (hcopy n) := by
  induction n with
  | zero => intro _ _ _ _ h; simp [hcopy] at h
  | succ n ih =>
    intro cs s cs' s' h hc hs p
    cases s with
    | null => simp only [hcopy] at h; cases h; rfl
    | bool _ => simp only [hcopy] at h; cases h; rfl
    | int _ => simp only [hcopy] at h; cases h; rfl
    | uint _ => simp only [hcopy] at h; cases h; rfl
    | flt _ => simp only [hcopy] at h; cases h; rfl
    | str a =>
      simp only [hcopy] at h
      split at h
      · next bs hca =>
        cases h
        cases p with
        | nil => simp [see, hget, look, hca]
        | cons e p => rw [see_leaf_cons _ _ (by simp), see_leaf_cons _ _ (by simp)]
      · cases h
    | blob a =>
      simp only [hcopy] at h
      split at h
      · next bs hca =>
        cases h
        cases p with
        | nil => simp [see, hget, look, hca]
        | cons e p => rw [see_leaf_cons _ _ (by simp), see_leaf_cons _ _ (by simp)]
      · cases h
    | list a =>
      simp only [hcopy] at h
      split at h
      · next ss hca =>
        split at h
        · cases h
        · next cs1 ss1 h1 =>
          cases h
          have hss : ∀ s ∈ ss, ∀ a, s.addr = some a → a < cs.length := fun s hs b hb =>
            hc a _ hca s hs b hb
          have ⟨a1, a2, _⟩ := copyAll_new (hcopy_new n) _ _ _ _ h1
          have ⟨b1, b2⟩ := copyAll_see (hcopy_new n) ih _ _ _ _ h1 hc hss
          have hlast : (cs1 ++ [Cell.list ss1])[cs1.length]? = some (.list ss1) := by simp
          cases p with
          | nil => simp [see, hget, look, hca, b1]
          | cons e p =>
            rw [see_cons_list hca, see_cons_list hlast]
            cases e with
            | key _ => rfl
            | index i =>
              simp only
              by_cases hi : i.toNat < ss.length
              · have hi1 : i.toNat < ss1.length := by omega
                rw [List.getElem?_eq_getElem hi, List.getElem?_eq_getElem hi1]
                simp only
                rw [see_append (newCells_closedC hc a1) _ _
                  (fun b hb => (a2 _ (List.getElem_mem hi1) b hb).2)]
                exact b2 i.toNat _ _ (List.getElem?_eq_getElem hi) (List.getElem?_eq_getElem hi1) p
              · rw [List.getElem?_eq_none (by omega), List.getElem?_eq_none (by omega)]
      · cases h
    | map a =>
      simp only [hcopy] at h
      split at h
      · next m hca =>
        split at h
        · cases h
        · next cs1 ss1 h1 =>
          cases h
          have hss : ∀ s ∈ m.map (·.2), ∀ a, s.addr = some a → a < cs.length := fun s hs b hb =>
            hc a _ hca s hs b hb
          have ⟨a1, a2, _⟩ := copyAll_new (hcopy_new n) _ _ _ _ h1
          have ⟨b1, b2⟩ := copyAll_see (hcopy_new n) ih _ _ _ _ h1 hc hss
          have hlast : (cs1 ++ [Cell.map ((m.map (·.1)).zip ss1)])[cs1.length]?
              = some (.map ((m.map (·.1)).zip ss1)) := by simp
          have hkl : (m.map (·.1)).length = ss1.length := by rw [b1]; simp
          cases p with
          | nil =>
            simp only [see, hget, look, hca, Option.bind_some, hlast]
            rw [List.map_fst_zip (by omega)]
          | cons e p =>
            rw [see_cons_map hca, see_cons_map hlast]
            cases e with
            | index _ => rfl
            | key k =>
              simp only
              have hz := get_zip (ks := m.map (·.1)) (ss := m.map (·.2)) (ts := ss1) (by simp) b1 k
              rw [zip_fst_snd] at hz
              rcases hz with ⟨h1, h2⟩ | ⟨i, s, t, h1, h2, h3, h4⟩
              · rw [h1, h2]
              · rw [h3, h4]
                simp only
                rw [see_append (newCells_closedC hc a1) _ _
                  (fun b hb => (a2 _ (List.mem_of_getElem? h2) b hb).2)]
                exact b2 i s t h1 h2 p
      · cases h

end Verif.Heap
