import Verif.Reset.Lemmas
/-!
# Property list parsers that are used again
-/

namespace Verif.Reset
open Verif Verif.JsonDrv Verif.Build
open Verif.Xml (St After RNode Entry nodeOf readInt readBlob)

/-! ## Without handlers left, and with handlers that are not reached -/

theorem xbegin_eq {left : Bool} {ft : UInt64 → Bytes} {st : List St} {e : Bool} {b : BState} {n : St} {i : Bool}
    (h : left = false ∨ b.frames ≠ []) : xbegin left ft st e b n i = Xml.beginElement ft st e b n i := by
  cases n <;> simp only [xbegin, Xml.beginElement, topEvent_eq h]

theorem xtext_eq {left : Bool} {fo : FloatOps} {s : Bool} {st : List St} {e : Bool} {b : BState} {t : Bytes}
    (h : left = false ∨ b.frames ≠ []) : xtext left fo s st e b t = Xml.processText fo s st e b t := by
  cases st with
  | nil => rfl
  | cons n st => cases n <;> simp only [xtext, Xml.processText, topEvent_eq h]

theorem xend_eq {left : Bool} {ft : UInt64 → Bytes} {st : List St} {e : Bool} {b : BState} {n : St}
    (h : left = false ∨ b.frames ≠ []) : xend left ft st e b n = Xml.endElement ft st e b n := by
  cases st with
  | nil => rfl
  | cons t st => cases n <;> simp only [xend, Xml.endElement, topEvent_eq h]

theorem xnode_eq {left : Bool} {fo : FloatOps} {s : Bool} {st : List St} {e : Bool} {b : BState} {n : RNode}
    (h : left = false ∨ b.frames ≠ []) : xnode left fo s st e b n = Xml.node fo s st e b n := by
  have hc : (b.frames = [] ∧ left = false) ↔ b.frames = [] := by
    rcases h with h | h <;> simp [h]
  cases n <;> simp only [xnode, Xml.node, xbegin_eq h, xend_eq h, xtext_eq h, hc]

theorem xenter_false {ft : UInt64 → Bytes} : ∀ (st : List St) (b : BState), xenter false ft st b = Xml.enter ft st b
  | [], b => by simp [xenter, Xml.enter]
  | t :: st, b => by
    have key : ∀ e, (do
        let b ← topEvent false ft b e
        if b.frames = [] then .ok (.stop b.result) else xenter false ft st b) = (do Xml.enter ft st (← event ft b e)) := by
      intro e
      rw [topEvent_eq (.inl rfl)]
      cases event ft b e with
      | throw _ => rfl
      | ub => rfl
      | ok b' =>
        simp only [Out.bind_ok, xenter_false st b']
        split
        · rename_i hf
          cases st <;> simp [Xml.enter, hf]
        · rfl
    cases t <;> simp only [xenter, Xml.enter, key, and_true]

theorem xrun_false {fo : FloatOps} : ∀ (ns : List RNode) (stale : Nat → Bool) (st : List St) (e : Bool) (b : BState),
    xrun false fo stale st e b ns = Xml.run fo stale st e b ns
  | [], _, st, _, _ => by
    cases st with
    | nil => rfl
    | cons t st => cases t <;> rfl
  | n :: ns, stale, st, e, b => by
    simp only [xrun, Xml.run, xnode_eq (.inl rfl), xenter_false]
    cases Xml.node fo (stale 0) st e b n with
    | throw _ => rfl
    | ub => rfl
    | ok a =>
      simp only [Out.bind_ok]
      split
      · exact xrun_false ns _ _ _ _
      · cases Xml.enter fo.fltText a.stack a.b with
        | throw _ => rfl
        | ub => rfl
        | ok en =>
          cases en with
          | stop v => rfl
          | go st b => exact xrun_false ns _ _ _ _

/-! ## What lies below `EndState` -/

/-- Put the old states below. -/
def under (old : List St) (a : After) : After := { a with stack := a.stack ++ old }

theorem begin_under {ft : UInt64 → Bytes} {st old : List St} {e : Bool} {b : BState} {n : St} {i : Bool} :
    Xml.beginElement ft (st ++ old) e b n i = under old <$> Xml.beginElement ft st e b n i := by
  have key : ∀ (o : Out BState) (f g : BState → After), (∀ b, f b = under old (g b)) →
      (do let b ← o; return f b) = under old <$> (do let b ← o; return g b) := by
    intro o f g h
    cases o with
    | ok b => simp [h]
    | throw _ => rfl
    | ub => rfl
  cases n <;> cases i <;> first | rfl | exact key _ _ _ fun _ => rfl

theorem text_under {fo : FloatOps} {s : Bool} {st old : List St} {e : Bool} {b : BState} {t : Bytes} (h : st ≠ []) :
    Xml.processText fo s (st ++ old) e b t = under old <$> Xml.processText fo s st e b t := by
  have key : ∀ (o : Out BState) (f g : BState → After), (∀ b, f b = under old (g b)) →
      (do let b ← o; return f b) = under old <$> (do let b ← o; return g b) := by
    intro o f g h
    cases o with
    | ok b => simp [h]
    | throw _ => rfl
    | ub => rfl
  cases st with
  | nil => exact absurd rfl h
  | cons n st =>
    cases n <;> try first | rfl | exact key _ _ _ fun _ => rfl
    simp only [List.cons_append, Xml.processText]
    cases readBlob t with
    | throw _ => rfl
    | ub => rfl
    | ok v => exact key _ _ _ fun _ => rfl

theorem end_under {ft : UInt64 → Bytes} {st old : List St} {e : Bool} {b : BState} {n : St} (h : st ≠ []) :
    Xml.endElement ft (st ++ old) e b n = under old <$> Xml.endElement ft st e b n := by
  cases st with
  | nil => exact absurd rfl h
  | cons t st =>
    have key : ∀ (o : Out BState), (do let b ← o; (Out.ok ⟨false, st ++ old, e, b⟩ : Out After)) =
        under old <$> (do let b ← o; (Out.ok ⟨false, st, e, b⟩ : Out After)) := by
      intro o
      cases o <;> rfl
    rw [List.cons_append]
    unfold Xml.endElement
    dsimp only
    split
    · rfl
    · cases n <;> dsimp only <;> (try split) <;> first | rfl | exact key _

theorem node_under {fo : FloatOps} {s : Bool} {st old : List St} {e : Bool} {b : BState} {n : RNode} (h : st ≠ []) :
    Xml.node fo s (st ++ old) e b n = under old <$> Xml.node fo s st e b n := by
  cases n <;> simp only [Xml.node, begin_under, text_under h, end_under h] <;> first | rfl | (split <;> rfl)

theorem nodeOf_ne_end (name : Bytes) : nodeOf name ≠ .end := by
  unfold nodeOf
  repeat' split
  all_goals simp

/-- What a node does to the state stack. -/
theorem node_stack {fo : FloatOps} {s : Bool} {st : List St} {e : Bool} {b : BState} {n : RNode} {a : After}
    (h : Xml.node fo s st e b n = .ok a) :
    a.stack = st ∨ (∃ t, a.stack = t :: st ∧ t ≠ .end ∧ ∃ name i, n = .elem name i ∧ (t = .root → nodeOf name = .root)) ∨
      (∃ t, st = t :: a.stack ∧ t ≠ .end ∧ a.loop = false ∧ ∃ name, n = .endElem name ∧ t = nodeOf name) := by
  cases n with
  | other => simp only [Xml.node, Out.ok.injEq] at h; subst h; exact .inl rfl
  | error => simp [Xml.node] at h
  | text t =>
    left
    simp only [Xml.node] at h
    split at h
    · cases h
    · cases st with
      | nil => simp [Xml.processText] at h
      | cons t' st =>
        cases t' <;> simp only [Xml.processText] at h <;> try first | (cases h; done) | (cases h; rfl)
        all_goals
          obtain ⟨x, _, h⟩ := Out.bind_eq_ok.1 h
          first
            | (cases h; rfl)
            | (obtain ⟨y, _, h⟩ := Out.bind_eq_ok.1 h; cases h; rfl)
  | elem name i =>
    simp only [Xml.node] at h
    split at h
    · cases h
    · have hne := nodeOf_ne_end name
      generalize hm : nodeOf name = m at h hne
      cases m <;> cases i <;> simp [Xml.beginElement, Out.bind_eq_ok] at h
      all_goals first
        | (subst h; right; left; exact ⟨_, rfl, by simp, _, _, rfl, by simp⟩)
        | (obtain ⟨x, _, h⟩ := h; subst h; left; rfl)
        | (obtain ⟨x, _, h⟩ := h; subst h; right; left; exact ⟨_, rfl, by simp, _, _, rfl, by simp [hm]⟩)
  | endElem name =>
    right; right
    simp only [Xml.node] at h
    split at h
    · cases h
    · have hne := nodeOf_ne_end name
      cases st with
      | nil => simp [Xml.endElement] at h
      | cons t st =>
        have hd : ∀ {o : Out BState}, (do let b ← o; (Out.ok ⟨false, st, e, b⟩ : Out After)) = .ok a → a.stack = st ∧ a.loop = false := by
          intro o ho
          obtain ⟨x, _, ho⟩ := Out.bind_eq_ok.1 ho
          cases ho; exact ⟨rfl, rfl⟩
        unfold Xml.endElement at h
        dsimp only at h
        split at h
        · cases h
        · rename_i ht
          simp only [ne_eq, Decidable.not_not] at ht
          have hs : a.stack = st ∧ a.loop = false := by
            generalize nodeOf name = m at h
            cases m <;> dsimp only at h <;> (try split at h) <;>
              first | (cases h; done) | (cases h; exact ⟨rfl, rfl⟩) | exact hd h
          exact ⟨t, by rw [hs.1], by rw [ht]; exact hne, hs.2, name, rfl, ht⟩

/-- Put the old states below. -/
def underE (old : List St) : Entry → Entry
  | .stop v => .stop v
  | .go st b => .go (st ++ old) b

theorem enter_under {ft : UInt64 → Bytes} {old : List St} : ∀ (st : List St) (b : BState), St.end ∈ st →
    Xml.enter ft (st ++ old) b = underE old <$> Xml.enter ft st b
  | [], _, h => by simp at h
  | t :: st, b, h => by
    have key : St.end ∈ st → ∀ e, (do Xml.enter ft (st ++ old) (← event ft b e)) =
        underE old <$> (do Xml.enter ft st (← event ft b e)) := by
      intro h e
      cases event ft b e with
      | throw _ => rfl
      | ub => rfl
      | ok b' => exact enter_under st b' h
    simp only [List.cons_append, Xml.enter]
    split
    · rfl
    · cases t <;> simp only at h ⊢ <;> first | rfl | exact key (by simpa using h) _

theorem enter_end {ft : UInt64 → Bytes} : ∀ (st st' : List St) (b b' : BState), St.end ∈ st →
    Xml.enter ft st b = .ok (.go st' b') → St.end ∈ st'
  | [], _, _, _, h, _ => by simp at h
  | t :: st, st', b, b', h, he => by
    simp only [Xml.enter] at he
    split at he
    · cases he
    · cases t <;> simp only at he <;> try (cases he; done)
      case start => cases he; simp
      case root => cases he; exact h
      case map => cases he; exact h
      case list => cases he; exact h
      case emptyMap =>
        obtain ⟨x, _, he⟩ := Out.bind_eq_ok.1 he
        exact enter_end st st' x b' (by simpa using h) he
      case emptyList =>
        obtain ⟨x, _, he⟩ := Out.bind_eq_ok.1 he
        exact enter_end st st' x b' (by simpa using h) he

theorem run_under {fo : FloatOps} {old : List St} : ∀ (ns : List RNode) (stale : Nat → Bool) (st : List St) (e : Bool) (b : BState),
    St.end ∈ st → Xml.run fo stale (st ++ old) e b ns = Xml.run fo stale st e b ns
  | [], _, st, _, _, h => by
    cases st with
    | nil => simp at h
    | cons t st => cases t <;> rfl
  | n :: ns, stale, st, e, b, h => by
    have hne : st ≠ [] := by intro hh; rw [hh] at h; simp at h
    simp only [Xml.run, node_under hne]
    cases hn : Xml.node fo (stale 0) st e b n with
    | throw _ => rfl
    | ub => rfl
    | ok a =>
      have ha : St.end ∈ a.stack := by
        rcases node_stack hn with hs | ⟨t, hs, -⟩ | ⟨t, hs, ht, -⟩
        · rw [hs]; exact h
        · rw [hs]; exact List.mem_cons_of_mem _ h
        · rw [hs] at h
          rcases List.mem_cons.1 h with h | h
          · exact absurd h.symm ht
          · exact h
      simp only [Out.map_ok, Out.bind_ok, under]
      split
      · exact run_under ns _ _ _ _ ha
      · rw [enter_under _ _ ha]
        cases hen : Xml.enter fo.fltText a.stack a.b with
        | throw _ => rfl
        | ub => rfl
        | ok en =>
          cases en with
          | stop v => rfl
          | go st' b' =>
            simp only [Out.map_ok, Out.bind_ok, underE]
            exact run_under ns _ _ _ _ (enter_end _ _ _ _ ha hen)

end Verif.Reset
