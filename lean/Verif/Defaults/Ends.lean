import Verif.Defaults.Complete
import Verif.Schema.Height
import Verif.Loader.Lookup
/-!
# When a run ends, and that loaders have well-formed schemas
-/

namespace Verif.Defaults
open Verif Schema

/-! ## More fuel changes nothing -/

/-- What the first gives, the second gives. -/
def Le (a b : Run) : Prop := ∀ x, a = some x → b = some x

theorem Le.andThen {a b : Run} {f g : Val → Run} (h : Le a b) (hf : ∀ d, Le (f d) (g d)) : Le (andThen a f) (andThen b g) := by
  intro x hx
  rcases andThen_some hx with ⟨d, h1, h2⟩ | ⟨h1, h2⟩
  · rw [h _ h1]; exact hf d x h2
  · rw [h _ h1]
    obtain ⟨d, o⟩ := x
    cases o with
    | ok u => exact absurd rfl h2
    | throw e => rfl
    | ub => rfl

theorem Le.forEach {α : Type} {f g : Val → α → Run} (hf : ∀ d a, Le (f d a) (g d a)) (as : List α) : ∀ d, Le (forEach f d as) (forEach g d as) := by
  induction as with
  | nil => intro d x hx; exact hx
  | cons a as ih => intro d; exact (hf d a).andThen ih

theorem Le.atRef {get : Bytes → Out Val} {m : List (Bytes × Val)} {doc : Val} {f g : Val → Run} (h : ∀ s, Le (f s) (g s)) :
    Le (atRef get m doc f) (atRef get m doc g) := by
  rcases atRef_cases get m doc with ⟨_, e⟩ | ⟨u, s, _, _, e⟩ | ⟨u, o, _, _, _, e⟩ <;> rw [e, e]
  · exact fun _ h => h
  · exact h s
  · exact fun _ h => h

theorem Le.atProperties {m : List (Bytes × Val)} {doc : Val} {v : Option Val} {f g : Val → Bytes × Val → Run} (h : ∀ d a, Le (f d a) (g d a)) :
    Le (atProperties m doc v f) (atProperties m doc v g) := by
  rcases atProperties_cases m doc v with ⟨ps, _, _, e⟩ | ⟨_, e⟩ | ⟨_, _, _, _, _, e⟩ <;> rw [e, e]
  · exact Le.forEach h ps doc
  · exact fun _ h => h
  · exact fun _ h => h

theorem Le.atItems {m : List (Bytes × Val)} {doc : Val} {v : Option Val} {f g : Val → Val × UInt32 → Run} (h : ∀ d a, Le (f d a) (g d a)) :
    Le (atItems m doc v f) (atItems m doc v g) := by
  rcases atItems_cases m doc v with ⟨ps, _, _, e⟩ | ⟨_, e⟩ <;> rw [e, e]
  · exact Le.forEach h _ doc
  · exact fun _ h => h

theorem Le.below {doc : Val} {r : VRef} {e : PathElem} {f g : Val → VRef → Run} (h : ∀ d r, Le (f d r) (g d r)) :
    Le (below doc r e f) (below doc r e g) := by
  unfold Defaults.below
  split
  · exact h _ _
  · exact fun _ h => h
  · exact fun _ h => h

theorem fill_more (get : Bytes → Out Val) (n : Nat) : ∀ s doc r, Le (fill get n s doc r) (fill get (n + 1) s doc r) := by
  induction n with
  | zero => intro s doc r x h; cases h
  | succ n ih =>
    intro s doc r
    cases s with
    | map m =>
      rw [fill, fill]
      refine Le.andThen (Le.atRef fun s => ih s doc r) fun d => ?_
      cases ownDefault m (valueAt d r) with
      | some d => exact fun _ h => h
      | none =>
        dsimp only
        exact Le.andThen (Le.atProperties fun d a => Le.below fun d r => ih _ _ _) fun d =>
          Le.andThen (Le.atItems fun d a => Le.below fun d r => ih _ _ _) fun d => Le.forEach (fun d s => ih s d r) _ d
    | _ => rw [fill, fill]; exact fun _ h => h; all_goals nofun

theorem fill_mono {get : Bytes → Out Val} {n k : Nat} (hk : n ≤ k) {s doc : Val} {r : VRef} : Le (fill get n s doc r) (fill get k s doc r) := by
  induction hk with
  | refl => exact fun _ h => h
  | step _ ih => exact fun x h => fill_more get _ s doc r x (ih x h)

/-! ## Without references a run ends -/

theorem andThen_ends {a : Run} {f : Val → Run} (h : a ≠ none) (hf : ∀ d, f d ≠ none) : andThen a f ≠ none := by
  unfold andThen
  split
  · exact hf _
  · exact h

theorem forEach_ends {α : Type} {f : Val → α → Run} {as : List α} (hf : ∀ d, ∀ a ∈ as, f d a ≠ none) : ∀ d, forEach f d as ≠ none := by
  induction as with
  | nil => intro d h; cases h
  | cons a as ih => intro d; exact andThen_ends (hf d a (List.mem_cons_self ..)) (ih fun d a ha => hf d a (List.mem_cons_of_mem _ ha))

theorem below_ends {doc : Val} {r : VRef} {e : PathElem} {f : Val → VRef → Run} (h : ∀ d r, f d r ≠ none) : below doc r e f ≠ none := by
  unfold below
  split
  · exact h _ _
  · nofun
  · nofun

theorem fill_ends (get : Bytes → Out Val) (n : Nat) : ∀ (s doc : Val) (r : VRef), height s < n → refFree s = true → fill get n s doc r ≠ none := by
  induction n with
  | zero => intro s doc r h; omega
  | succ n ih =>
    intro s doc r hn hf
    cases s with
    | map m =>
      rw [fill]
      simp only [height] at hn
      have hf' : refFreeMap m = true := by simpa [refFree] using hf
      have inM : ∀ {k x}, AMap.get m k = some x → height x < n ∧ refFree x = true := fun h => by
        have := mem_map (get_mem h) hf'
        exact ⟨by omega, this.2.1⟩
      have inL : ∀ {k xs x}, AMap.get m k = some (.list xs) → x ∈ xs → height x < n ∧ refFree x = true := fun h hx => by
        obtain ⟨h1, h2⟩ := inM h
        simp only [height] at h1
        have := mem_list hx (by simpa [refFree] using h2)
        exact ⟨by omega, this.2⟩
      refine andThen_ends ?_ fun d => ?_
      · rcases atRef_cases get m doc with ⟨_, e⟩ | ⟨u, s, hr, _, e⟩ | ⟨u, o, _, _, _, e⟩ <;> rw [e]
        · nofun
        · exact absurd rfl (mem_map (get_mem hr) hf').2.2
        · nofun
      · cases ownDefault m (valueAt d r) with
        | some x =>
          dsimp only
          cases refAssign d r x with
          | mk w er => cases er <;> nofun
        | none =>
          dsimp only
          refine andThen_ends ?_ fun d => andThen_ends ?_ fun d => forEach_ends (fun d s hs => ?_) d
          · rcases atProperties_cases m d (valueAt d r) with ⟨ps, _, h2, e⟩ | ⟨_, e⟩ | ⟨_, _, _, _, _, e⟩ <;> rw [e]
            · obtain ⟨h3, h4⟩ := inM h2
              simp only [height] at h3
              refine forEach_ends (fun d a ha => below_ends fun d r => ?_) d
              have := mem_map (k := a.1) (x := a.2) ha (by simpa [refFree] using h4)
              exact ih a.2 d r (by omega) this.2.1
            · nofun
            · nofun
          · rcases atItems_cases m d (valueAt d r) with ⟨v, _, h2, e⟩ | ⟨_, e⟩ <;> rw [e]
            · refine forEach_ends (fun d a ha => below_ends fun d r => ?_) d
              rcases mem_itemsOf (s := a.1) (i := a.2) ha with ⟨l, j, rfl, hj, _, _⟩ | ⟨_, hv, _⟩
              · have := inL h2 (List.mem_of_getElem? hj)
                exact ih _ d r this.1 this.2
              · have := inM h2
                rw [← hv] at this
                exact ih _ d r this.1 this.2
            · nofun
          · simp only [List.mem_append] at hs
            rcases hs with (hs | hs) | hs <;> obtain ⟨ss, h1, h2⟩ := mem_membersOf hs <;> have := inL h1 h2 <;>
              exact ih _ d r this.1 this.2
    | _ => rw [fill]; nofun; all_goals nofun

/-! ## Loaders have well-formed schemas -/

open Loader

/-- Every schema is well formed. -/
def WFSchemas (s : Schemas) : Prop := ∀ k v, AMap.get s k = some v → v.WF

/-- A loader with well-formed schemas, whose handler registers well-formed ones. -/
def GoodLayer (l : Layer) : Prop := WFSchemas l.schemas ∧ ∀ h, l.handler = some h → ∀ s u, WFSchemas s → WFSchemas (h s u).1

theorem inside_wf {p : Nat} {v w : Val} {f : Bytes} (hv : v.WF) (h : inside p v f = .ok w) : w.WF := by
  unfold inside at h
  cases hu : Uri.unescapeURI f with
  | ok f =>
    rw [hu] at h
    dsimp only [Ext.pointerLookup, Ext.pointerOp] at h
    cases hc : Ext.components f with
    | none => rw [hc] at h; cases h
    | some ts =>
      rw [hc] at h
      dsimp only at h
      obtain ⟨h1, h2⟩ := Ext.opTokens_get p hv ts
      cases hw : Ext.walk v ts with
      | none => obtain ⟨e, he⟩ := h1 hw; rw [he] at h; cases h
      | some q =>
        obtain ⟨c, hc⟩ := Ext.walk_get hw
        rw [h2 q c hw hc] at h
        cases h
        exact getPath?_wf hv hc
  | throw e => rw [hu] at h; cases h
  | ub => rw [hu] at h; cases h

theorem getSchema_wf (p : Nat) : ∀ (ls : List Layer), (∀ l ∈ ls, GoodLayer l) → GoodLoader fun u => (getSchema p ls u).2 := by
  intro ls
  induction ls with
  | nil => intro _ u s h; cases h
  | cons l ls ih =>
    intro hl u s h
    obtain ⟨h1, h2⟩ := hl l (List.mem_cons_self ..)
    simp only [getSchema] at h
    cases hs : AMap.get l.schemas u with
    | some v => rw [hs] at h; cases h; exact h1 _ _ hs
    | none =>
      rw [hs] at h
      dsimp only at h
      cases hs' : AMap.get l.schemas (splitUri u).1 with
      | some v => rw [hs'] at h; exact inside_wf (h1 _ _ hs') h
      | none =>
        rw [hs'] at h
        dsimp only at h
        by_cases hne : ls ≠ []
        · rw [if_pos hne] at h
          exact ih (fun l hl' => hl l (List.mem_cons_of_mem _ hl')) u s h
        · rw [if_neg hne] at h
          have hw : WFSchemas (handleMissing l (splitUri u).1).1.schemas := by
            unfold handleMissing
            cases hh : l.handler with
            | none => exact h1
            | some hd => exact h2 hd hh _ _ h1
          dsimp only at h
          cases ho : (handleMissing l (splitUri u).1).2 with
          | ok b =>
            rw [ho] at h
            cases b with
            | true =>
              dsimp only at h
              cases hg : AMap.get (handleMissing l (splitUri u).1).1.schemas (splitUri u).1 with
              | some v => rw [hg] at h; exact inside_wf (hw _ _ hg) h
              | none => rw [hg] at h; cases h; simp [Val.WF]
            | false => cases h
          | throw e => rw [ho] at h; cases h
          | ub => rw [ho] at h; cases h

theorem within_wf {v w : Val} (h : Within v w) (hv : v.WF) : w.WF := by
  induction h with
  | here => exact hv
  | step hm _ _ ih => exact ih (wf_mem hv hm)

theorem addSchema_wf {s : Schemas} (hs : WFSchemas s) (uri : Bytes) {v : Val} (hv : v.WF) : WFSchemas (addSchema s uri v) := by
  intro k x h
  unfold addSchema at h
  rw [get_insertAll] at h
  cases he : AMap.get s k with
  | some y => rw [he] at h; cases h; exact hs k x he
  | none =>
    rw [he] at h
    have hn := norm_wf (Uri.resolveURI uri []) v hv
    rcases (search_spec _ _ _).2.1 k x h with h | ⟨m, rfl, hw, _, _⟩
    · simp only [AMap.get] at h
      split at h
      · cases h; exact hn
      · cases h
    · exact within_wf hw hn

theorem local_good {builtin : Bytes × Val} (hb : builtin.2.WF) {s : Val} (hs : s.WF) : GoodLayer (localLayer builtin s) := by
  refine ⟨addSchema_wf (fun k v h => ?_) [] hs, nofun⟩
  simp only [AMap.get] at h
  split at h
  · cases h; exact hb
  · cases h

end Verif.Defaults
