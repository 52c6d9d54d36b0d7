import Verif.Reset.Xml
/-!
# Property list parsers: what is left of earlier calls
-/

namespace Verif.Reset
open Verif Verif.JsonDrv Verif.Build
open Verif.Xml (St After RNode Entry nodeOf readInt readBlob)

/-! ## `empty` is set before it is looked at -/

/-- States of elements with a text. -/
def content : St → Bool
  | .integer | .float | .blob | .string | .key => true
  | _ => false

/-- The same but for `empty`, which does not matter unless an element with a text is open. -/
def Same : Out After → Out After → Prop
  | .ok a, .ok a' => a.loop = a'.loop ∧ a.stack = a'.stack ∧ a.b = a'.b ∧ (a.empty = a'.empty ∨ ∀ t ∈ a.stack, content t = false)
  | .throw x, .throw y => x = y
  | .ub, .ub => True
  | _, _ => False

theorem Same.rfl' (o : Out After) : Same o o := by cases o <;> simp [Same]

theorem node_empty {fo : FloatOps} {s : Bool} {st : List St} {e e' : Bool} {b : BState} {n : RNode}
    (h : e = e' ∨ ∀ t ∈ st, content t = false) : Same (Xml.node fo s st e b n) (Xml.node fo s st e' b n) := by
  rcases h with rfl | h
  · exact Same.rfl' _
  have key : ∀ (o : Out BState) (l : Bool) (st' : List St), (∀ t ∈ st', content t = false) →
      Same (do let b ← o; (Out.ok ⟨l, st', e, b⟩ : Out After)) (do let b ← o; (Out.ok ⟨l, st', e', b⟩ : Out After)) := by
    intro o l st' h
    cases o with
    | ok b => exact ⟨rfl, rfl, rfl, .inr h⟩
    | throw _ => rfl
    | ub => trivial
  have hpush : ∀ n, content n = false → ∀ t ∈ n :: st, content t = false := by
    intro n hn t ht
    rcases List.mem_cons.1 ht with rfl | ht
    · exact hn
    · exact h t ht
  cases n with
  | other => exact ⟨rfl, rfl, rfl, .inr h⟩
  | error => rfl
  | text t =>
    simp only [Xml.node]
    split
    · rfl
    · cases st with
      | nil => trivial
      | cons t' st =>
        have ht := h t' List.mem_cons_self
        cases t' <;> simp [content] at ht <;> first | rfl | exact ⟨rfl, rfl, rfl, .inr h⟩
  | elem name i =>
    simp only [Xml.node]
    split
    · rfl
    · cases nodeOf name <;> cases i <;> first
        | rfl
        | exact ⟨rfl, rfl, rfl, .inl rfl⟩
        | exact key _ _ _ h
        | exact key _ _ _ (hpush _ rfl)
  | endElem name =>
    simp only [Xml.node]
    split
    · rfl
    · cases st with
      | nil => trivial
      | cons t st =>
        have ht := h t List.mem_cons_self
        have h' : ∀ t ∈ st, content t = false := fun t ht => h t (List.mem_cons_of_mem _ ht)
        unfold Xml.endElement
        dsimp only
        split
        · rfl
        · rename_i htn
          simp only [ne_eq, Decidable.not_not] at htn
          rw [htn] at ht
          generalize nodeOf name = m at ht
          cases m <;> simp [content] at ht <;> first
            | rfl
            | exact ⟨rfl, rfl, rfl, .inr h'⟩
            | exact key _ _ _ h'

theorem enter_content {ft : UInt64 → Bytes} : ∀ (st st' : List St) (b b' : BState), (∀ t ∈ st, content t = false) →
    Xml.enter ft st b = .ok (.go st' b') → ∀ t ∈ st', content t = false
  | [], _, b, _, h, he => by simp only [Xml.enter] at he; split at he <;> cases he
  | t :: st, st', b, b', h, he => by
    have h' : ∀ t ∈ st, content t = false := fun t ht => h t (List.mem_cons_of_mem _ ht)
    simp only [Xml.enter] at he
    split at he
    · cases he
    · cases t <;> simp only at he <;> try (cases he; done)
      case start =>
        cases he
        intro t ht
        rcases List.mem_cons.1 ht with rfl | ht
        · rfl
        · exact h' t ht
      case root => cases he; exact h
      case map => cases he; exact h
      case list => cases he; exact h
      case emptyMap =>
        obtain ⟨x, _, he⟩ := Out.bind_eq_ok.1 he
        exact enter_content st st' x b' h' he
      case emptyList =>
        obtain ⟨x, _, he⟩ := Out.bind_eq_ok.1 he
        exact enter_content st st' x b' h' he

theorem run_empty {fo : FloatOps} : ∀ (ns : List RNode) (stale : Nat → Bool) (st : List St) (e e' : Bool) (b : BState),
    (e = e' ∨ ∀ t ∈ st, content t = false) → Xml.run fo stale st e b ns = Xml.run fo stale st e' b ns
  | [], _, st, _, _, _, h => by
    cases st with
    | nil => rfl
    | cons t st => cases t <;> rfl
  | n :: ns, stale, st, e, e', b, h => by
    have hs := node_empty (fo := fo) (s := stale 0) (b := b) (n := n) h
    simp only [Xml.run]
    cases h1 : Xml.node fo (stale 0) st e b n with
    | throw x =>
      rw [h1] at hs
      cases h2 : Xml.node fo (stale 0) st e' b n with
      | throw y => rw [h2] at hs; simp only [Same] at hs; rw [hs]
      | ub => rw [h2] at hs; exact hs.elim
      | ok a => rw [h2] at hs; exact hs.elim
    | ub =>
      rw [h1] at hs
      cases h2 : Xml.node fo (stale 0) st e' b n with
      | throw y => rw [h2] at hs; exact hs.elim
      | ub => rfl
      | ok a => rw [h2] at hs; exact hs.elim
    | ok a =>
      rw [h1] at hs
      cases h2 : Xml.node fo (stale 0) st e' b n with
      | throw y => rw [h2] at hs; exact hs.elim
      | ub => rw [h2] at hs; exact hs.elim
      | ok a' =>
        rw [h2] at hs
        obtain ⟨l1, l2, l3, l4⟩ := hs
        simp only [Out.bind_ok, ← l1, ← l2, ← l3]
        split
        · exact run_empty ns _ _ _ _ _ l4
        · cases hen : Xml.enter fo.fltText a.stack a.b with
          | throw _ => rfl
          | ub => rfl
          | ok en =>
            cases en with
            | stop v => rfl
            | go st' b' =>
              exact run_empty ns _ _ _ _ _ (l4.imp id fun hc => enter_content _ _ _ _ hc hen)

/-! ## The handlers left are not reached from inside a `plist` element -/

/-- The state stack inside one `plist` element. -/
def Inside (st : List St) : Prop := ∃ s r, st = s ++ .root :: .end :: r ∧ St.root ∉ s

theorem Inside.cons {t : St} {st : List St} (h : Inside st) (ht : t ≠ .root) : Inside (t :: st) := by
  obtain ⟨s, r, rfl, hs⟩ := h
  exact ⟨t :: s, r, rfl, by simp [hs, ht.symm]⟩

theorem Inside.tail {t : St} {st : List St} (h : Inside (t :: st)) : (t = .root ∧ ∃ r, st = .end :: r) ∨ (t ≠ .root ∧ Inside st) := by
  obtain ⟨s, r, h, hs⟩ := h
  cases s with
  | nil =>
    simp only [List.nil_append, List.cons.injEq] at h
    exact .inl ⟨h.1, r, h.2⟩
  | cons t' s =>
    simp only [List.cons_append, List.cons.injEq] at h
    obtain ⟨rfl, rfl⟩ := h
    simp only [List.mem_cons, not_or] at hs
    exact .inr ⟨fun hh => hs.1 hh.symm, s, r, rfl, hs.2⟩

theorem node_rooted {fo : FloatOps} {s : Bool} {st : List St} {e : Bool} {b : BState} {n : RNode} {a : After} (hb : Rooted b)
    (hr : ∀ name, n = .endElem name → nodeOf name ≠ .root) (h : Xml.node fo s st e b n = .ok a) : Rooted a.b := by
  have key : ∀ (o : Out After) (ev : PEv) (f : BState → After), ev ≠ .endDoc → (∀ b, (f b).b = b) →
      (do let b ← event fo.fltText b ev; Out.ok (f b)) = .ok a → Rooted a.b := by
    intro o ev f hev hf h
    obtain ⟨x, hx, h⟩ := Out.bind_eq_ok.1 h
    simp only [Out.ok.injEq] at h
    rw [← h, hf]
    exact event_rooted hb hev hx
  cases n with
  | other => simp only [Xml.node, Out.ok.injEq] at h; subst h; exact hb
  | error => simp [Xml.node] at h
  | text t =>
    simp only [Xml.node] at h
    split at h
    · cases h
    · cases st with
      | nil => simp [Xml.processText] at h
      | cons t' st =>
        cases t' <;> simp only [Xml.processText] at h <;> first
          | (cases h; done)
          | (cases h; exact hb)
          | exact key .ub _ (fun b => ⟨true, _, false, b⟩) (by simp) (fun _ => rfl) h
          | (obtain ⟨v, _, h⟩ := Out.bind_eq_ok.1 h
             exact key .ub _ (fun b => ⟨true, _, false, b⟩) (by simp) (fun _ => rfl) h)
  | elem name i =>
    simp only [Xml.node] at h
    split at h
    · cases h
    · generalize nodeOf name = m at h
      cases m <;> simp only [Xml.beginElement] at h <;> first
        | (cases h; done)
        | exact key .ub _ (fun b => ⟨_, _, _, b⟩) (by simp) (fun _ => rfl) h
        | (split at h
           · cases h
           · cases h; exact hb)
  | endElem name =>
    have hr := hr name rfl
    simp only [Xml.node] at h
    split at h
    · cases h
    · cases st with
      | nil => simp [Xml.endElement] at h
      | cons t st =>
        unfold Xml.endElement at h
        dsimp only at h
        split at h
        · cases h
        · generalize nodeOf name = m at h hr
          cases m <;> dsimp only at h <;> (try split at h) <;> first
            | (cases h; done)
            | (cases h; exact hb)
            | exact absurd rfl hr
            | exact key .ub _ (fun b => ⟨_, _, _, b⟩) (by simp) (fun _ => rfl) h

theorem xenter_inside {left : Bool} {ft : UInt64 → Bytes} : ∀ (st : List St) (b : BState), Rooted b → Inside st →
    xenter left ft st b = Xml.enter ft st b ∧
      ∀ st' b', Xml.enter ft st b = .ok (.go st' b') → Rooted b' ∧ Inside st'
  | [], _, _, h => by obtain ⟨s, r, h, _⟩ := h; simp at h
  | t :: st, b, hb, h => by
    have hc : ¬ (b.frames = [] ∧ left = false) := fun hh => hb.ne hh.1
    have key : t ≠ .root → (∀ e, e ≠ PEv.endDoc → (do
        let b ← topEvent left ft b e
        if b.frames = [] then .ok (.stop b.result) else xenter left ft st b) = (do Xml.enter ft st (← event ft b e)) ∧
        ∀ st' b', (do Xml.enter ft st (← event ft b e)) = .ok (.go st' b') → Rooted b' ∧ Inside st') := by
      intro ht e he
      have hi : Inside st := by
        rcases h.tail with ⟨h, _⟩ | ⟨_, h⟩
        · exact absurd h ht
        · exact h
      rw [topEvent_eq (.inr hb.ne)]
      cases hev : event ft b e with
      | throw _ => exact ⟨rfl, fun _ _ h => by cases h⟩
      | ub => exact ⟨rfl, fun _ _ h => by cases h⟩
      | ok b' =>
        have hb' := event_rooted hb he hev
        simp only [Out.bind_ok]
        rw [if_neg hb'.ne]
        exact xenter_inside st b' hb' hi
    cases t <;> simp only [xenter, Xml.enter, if_neg hc, if_neg hb.ne]
    case emptyMap => exact key (by simp) _ (by simp)
    case emptyList => exact key (by simp) _ (by simp)
    case start =>
      refine ⟨trivial, fun st' b' he => ?_⟩
      cases he
      exact ⟨hb, (h.tail.resolve_left (by simp)).2.cons (by simp)⟩
    case root => exact ⟨trivial, fun st' b' he => by cases he; exact ⟨hb, h⟩⟩
    case map => exact ⟨trivial, fun st' b' he => by cases he; exact ⟨hb, h⟩⟩
    case list => exact ⟨trivial, fun st' b' he => by cases he; exact ⟨hb, h⟩⟩
    all_goals exact ⟨trivial, fun st' b' he => by cases he⟩

theorem xrun_inside {left : Bool} {fo : FloatOps} : ∀ (ns : List RNode) (stale : Nat → Bool) (st : List St) (e : Bool) (b : BState),
    Rooted b → Inside st → (∀ name i, RNode.elem name i ∈ ns → nodeOf name ≠ .root) →
    xrun left fo stale st e b ns = Xml.run fo stale st e b ns
  | [], _, st, _, _, _, _, _ => by
    cases st with
    | nil => rfl
    | cons t st => cases t <;> rfl
  | n :: ns, stale, st, e, b, hb, hi, hns => by
    have hns' : ∀ name i, RNode.elem name i ∈ ns → nodeOf name ≠ .root :=
      fun name i h => hns name i (List.mem_cons_of_mem _ h)
    simp only [xrun, Xml.run, xnode_eq (.inr hb.ne)]
    cases hn : Xml.node fo (stale 0) st e b n with
    | throw _ => rfl
    | ub => rfl
    | ok a =>
      simp only [Out.bind_ok]
      -- the end of the `plist` element, or still inside
      have hcase : (a.loop = false ∧ ∃ r, a.stack = .end :: r) ∨ (Rooted a.b ∧ Inside a.stack) := by
        rcases node_stack hn with hs | ⟨t, hs, -, name, i, rfl, ht⟩ | ⟨t, hs, -, hl, name, rfl, ht⟩
        · refine .inr ⟨node_rooted hb ?_ hn, hs ▸ hi⟩
          rintro name rfl hroot
          have := node_stack hn
          rcases this with h | ⟨t, -, -, _, _, h, -⟩ | ⟨t, h, -⟩
          · simp only [Xml.node, if_neg hb.ne] at hn
            cases st with
            | nil => simp [Xml.endElement] at hn
            | cons t st =>
              unfold Xml.endElement at hn
              dsimp only at hn
              split at hn
              · cases hn
              · rw [hroot] at hn
                obtain ⟨x, _, hn⟩ := Out.bind_eq_ok.1 hn
                cases hn
                exact absurd h (List.cons_ne_self _ _).symm
          · cases h
          · rw [hs] at h; exact absurd h.symm (List.cons_ne_self _ _)
        · refine .inr ⟨node_rooted hb (by simp) hn, hs ▸ hi.cons fun h => hns name i List.mem_cons_self (ht h)⟩
        · rw [hs] at hi
          rcases hi.tail with ⟨hroot, r, hr⟩ | ⟨hroot, hi'⟩
          · exact .inl ⟨hl, r, hr⟩
          · refine .inr ⟨node_rooted hb ?_ hn, hi'⟩
            intro name' h
            cases h
            rwa [← ht]
      rcases hcase with ⟨hl, r, hr⟩ | ⟨hb', hi'⟩
      · rw [hl]
        simp only [Bool.false_eq_true, if_false]
        have h1 : xenter left fo.fltText a.stack a.b = .ok (.stop a.b.result) := by
          rw [hr]; simp only [xenter]; split <;> rfl
        have h2 : Xml.enter fo.fltText a.stack a.b = .ok (.stop a.b.result) := by
          rw [hr]; simp only [Xml.enter]; split <;> rfl
        rw [h1, h2]
        rfl
      · split
        · exact xrun_inside ns _ _ _ _ hb' hi' hns'
        · obtain ⟨h1, h2⟩ := xenter_inside (left := left) (ft := fo.fltText) a.stack a.b hb' hi'
          rw [h1]
          cases hen : Xml.enter fo.fltText a.stack a.b with
          | throw _ => rfl
          | ub => rfl
          | ok en =>
            cases en with
            | stop v => rfl
            | go st' b' =>
              obtain ⟨hb'', hi''⟩ := h2 st' b' hen
              exact xrun_inside ns _ _ _ _ hb'' hi'' hns'

end Verif.Reset
