import Verif.Xml.Doc
/-!
# Any sequence of nodes
-/

namespace Verif.Xml
open Verif Verif.JsonDrv
open Verif.Build (ETree BState Frame PEv)

theorem bind_ne_ub {α β : Type} {x : Out α} {f : α → Out β} (h : x ≠ .ub) (hf : ∀ a, x = .ok a → f a ≠ .ub) : (x >>= f) ≠ .ub := by
  cases x with
  | ok a => exact hf a rfl
  | throw e => intro h; cases h
  | ub => exact absurd rfl h

theorem asString_ne_ub (ft : UInt64 → Bytes) (v : Val) : Build.asString ft v ≠ .ub := by
  cases v with
  | bool b => cases b <;> (intro h; cases h)
  | _ => intro h; cases h

theorem setTop_ne_ub (ft : UInt64 → Bytes) (s : BState) (v : Val) : Build.setTop ft s v ≠ .ub := by
  unfold Build.setTop
  split
  · intro h; cases h
  · rename_i f rest _
    refine bind_ne_ub ?_ (fun a _ => by intro h; cases h)
    match f with
    | .root _ _ => intro h; cases h
    | .map m none => exact bind_ne_ub (asString_ne_ub ft v) (fun a _ => by intro h; cases h)
    | .map m (some k) => intro h; cases h
    | .list xs => intro h; cases h

theorem finish_ne_ub (ft : UInt64 → Bytes) (s : BState) : Build.finish ft s ≠ .ub := by
  unfold Build.finish
  split
  · intro h; cases h
  · intro h; cases h
  · exact setTop_ne_ub _ _ _

theorem event_ne_ub (ft : UInt64 → Bytes) (s : BState) (e : PEv) : Build.event ft s e ≠ .ub := by
  unfold Build.event
  split
  · intro h; cases h
  · split
    · split <;> (intro h; cases h)
    · exact finish_ne_ub _ _
    · intro h; cases h
    · intro h; cases h
    · split
      · exact finish_ne_ub _ _
      · intro h; cases h
    · split
      · exact finish_ne_ub _ _
      · intro h; cases h
    · exact setTop_ne_ub _ _ _

/-- The state at the bottom is always there. -/
def Bottom (st : List St) : Prop := ∃ r, st = r ++ [.end]

theorem Bottom.push {st : List St} (h : Bottom st) (t : St) : Bottom (t :: st) := by
  obtain ⟨r, rfl⟩ := h; exact ⟨t :: r, rfl⟩

theorem Bottom.ne {st : List St} (h : Bottom st) : st ≠ [] := by
  obtain ⟨r, rfl⟩ := h; simp

theorem Bottom.pop {t : St} {st : List St} (h : Bottom (t :: st)) (ht : t ≠ .end) : Bottom st := by
  obtain ⟨r, e⟩ := h
  cases r with
  | nil => cases e; exact absurd rfl ht
  | cons x r => cases e; exact ⟨r, rfl⟩

theorem nodeOf_ne_end (n : Bytes) : nodeOf n ≠ .end := by
  unfold nodeOf
  repeat' split
  all_goals (intro h; cases h)

/-- Nothing undefined, and the bottom state stays. -/
def Fine (x : Out After) : Prop := x ≠ .ub ∧ ∀ a, x = .ok a → Bottom a.stack

theorem Fine.throw {e : Err} : Fine (.throw e) := ⟨by nofun, by nofun⟩
theorem Fine.ok {a : After} (h : Bottom a.stack) : Fine (.ok a) := ⟨by nofun, fun b e => by cases e; exact h⟩
theorem Fine.bind {α : Type} {x : Out α} {f : α → Out After} (h : x ≠ .ub) (hf : ∀ a, Fine (f a)) : Fine (x >>= f) := by
  cases x with
  | ok a => exact hf a
  | throw e => exact .throw
  | ub => exact absurd rfl h

theorem begin_fine (ft : UInt64 → Bytes) {st : List St} (h : Bottom st) (e : Bool) (b : BState) (n : St) (em : Bool) :
    Fine (beginElement ft st e b n em) := by
  have hs : ∀ v, Fine (do
      let b ← Build.event ft b (.scalar v)
      return ⟨!em, if em then st else n :: st, e, b⟩) := by
    intro v
    refine .bind (event_ne_ub _ _ _) (fun b => .ok ?_)
    dsimp only
    split
    · exact h
    · exact h.push _
  have hc : Fine (if em then .throw .runtime else .ok ⟨true, n :: st, true, b⟩) := by
    split
    · exact .throw
    · exact .ok (h.push _)
  cases n with
  | null => exact hs _
  | «true» => exact hs _
  | «false» => exact hs _
  | root => exact .bind (event_ne_ub _ _ _) (fun b => .ok (h.push _))
  | map => exact .bind (event_ne_ub _ _ _) (fun b => .ok (h.push _))
  | list => exact .bind (event_ne_ub _ _ _) (fun b => .ok (h.push _))
  | integer => exact hc
  | float => exact hc
  | string => exact hc
  | blob => exact hc
  | key => exact hc
  | _ => exact .throw

/-- Texts the library can decode. -/
def SafeText (s : Bytes) : Prop := 0x7b ∉ s ∧ 3 * s.length < 2 ^ 32

theorem readBlob_ne_ub {s : Bytes} (h : SafeText s) : readBlob s ≠ .ub := by
  obtain ⟨r, hr⟩ := B64.decode_total_partial s h.1
  rw [readBlob_ok hr h.2]; nofun

theorem text_fine (fo : FloatOps) (q : Bool) {st : List St} (h : Bottom st) (e : Bool) (b : BState) (s : Bytes) (hs : SafeText s) :
    Fine (processText fo q st e b s) := by
  have hv : ∀ v, Fine (do
      let b ← Build.event fo.fltText b (.scalar v)
      return ⟨true, st, false, b⟩) := fun v => .bind (event_ne_ub _ _ _) (fun b => .ok h)
  match st, h, hv with
  | [], h, _ => exact absurd rfl h.ne
  | .null :: _, h, _ => exact .ok h
  | .root :: _, h, _ => exact .ok h
  | .true :: _, h, _ => exact .ok h
  | .false :: _, h, _ => exact .ok h
  | .map :: _, h, _ => exact .ok h
  | .list :: _, h, _ => exact .ok h
  | .integer :: _, h, hv => exact hv _
  | .float :: _, h, hv => exact hv _
  | .string :: _, h, hv => exact hv _
  | .key :: _, h, hv => exact hv _
  | .blob :: _, h, hv => exact .bind (readBlob_ne_ub hs) (fun v => hv v)
  | .start :: _, h, _ => exact .throw
  | .emptyMap :: _, h, _ => exact .throw
  | .emptyList :: _, h, _ => exact .throw
  | .end :: _, h, _ => exact .throw

theorem end_fine (ft : UInt64 → Bytes) {st : List St} (h : Bottom st) (e : Bool) (b : BState) (n : Bytes) :
    Fine (endElement ft st e b (nodeOf n)) := by
  cases st with
  | nil => exact absurd rfl h.ne
  | cons t st =>
    rw [endElement]
    by_cases ht : t = nodeOf n
    · rw [if_neg (by simpa using ht)]
      have hb : Bottom st := h.pop (ht ▸ nodeOf_ne_end n)
      generalize nodeOf n = m
      have hev : ∀ ev, Fine (do
          let b ← Build.event ft b ev
          Out.ok (⟨false, st, e, b⟩ : After)) := fun ev => .bind (event_ne_ub _ _ _) (fun b => .ok hb)
      have hc : Fine (if e then .throw .runtime else .ok ⟨false, st, e, b⟩) := by
        split
        · exact .throw
        · exact .ok hb
      have hstr : Fine (if e then do
          let b ← Build.event ft b (.scalar (.str []))
          Out.ok (⟨false, st, e, b⟩ : After) else .ok ⟨false, st, e, b⟩) := by
        split
        · exact hev _
        · exact .ok hb
      cases m with
      | null => exact .ok hb
      | «true» => exact .ok hb
      | «false» => exact .ok hb
      | integer => exact hc
      | float => exact hc
      | blob => exact hc
      | string => exact hstr
      | key => exact hstr
      | root => exact hev _
      | map => exact hev _
      | list => exact hev _
      | _ => exact .throw
    · rw [if_pos ht]; exact .throw

theorem enter_fine (ft : UInt64 → Bytes) : ∀ (st : List St) (b : BState), Bottom st →
    enter ft st b ≠ .ub ∧ ∀ st' b', enter ft st b = .ok (.go st' b') → Bottom st'
  | [], _, h => absurd rfl h.ne
  | t :: st, b, h => by
    by_cases hb : b.frames = []
    · have : enter ft (t :: st) b = .ok (.stop b.result) := by cases t <;> rw [enter, if_pos hb] <;> nofun
      rw [this]
      exact ⟨by nofun, by nofun⟩
    · have hgo : (Out.ok (Entry.go (t :: st) b) : Out Entry) ≠ .ub ∧
          ∀ st' b', (Out.ok (Entry.go (t :: st) b) : Out Entry) = .ok (.go st' b') → Bottom st' :=
        ⟨by nofun, fun st' b' e => by cases e; exact h⟩
      have hem : ∀ ev, t ≠ .end → (Build.event ft b ev >>= fun b => enter ft st b) ≠ .ub ∧
          ∀ st' b', (Build.event ft b ev >>= fun b => enter ft st b) = .ok (.go st' b') → Bottom st' := by
        intro ev ht
        have := event_ne_ub ft b ev
        cases he : Build.event ft b ev with
        | ok b2 => exact enter_fine ft st b2 (h.pop ht)
        | throw e => exact ⟨by nofun, by nofun⟩
        | ub => exact absurd he this
      cases t <;> rw [enter, if_neg hb]
      all_goals first
        | (intro h; cases h; done)
        | exact hgo
        | exact hem _ (by nofun)
        | exact ⟨by nofun, fun st' b' e => by cases e; exact (h.pop (by nofun)).push _⟩
        | exact ⟨by nofun, by nofun⟩

theorem node_fine (fo : FloatOps) (q : Bool) {st : List St} (h : Bottom st) (e : Bool) (b : BState) (n : RNode)
    (hs : ∀ s, n = .text s → SafeText s) : Fine (node fo q st e b n) := by
  cases n with
  | other => exact .ok h
  | error => exact .throw
  | elem n em =>
    rw [node]; split
    · exact .throw
    · exact begin_fine _ h _ _ _ _
  | endElem n =>
    rw [node]; split
    · exact .throw
    · exact end_fine _ h _ _ _
  | text s =>
    rw [node]; split
    · exact .throw
    · exact text_fine _ _ h _ _ _ (hs s rfl)

theorem run_fine (fo : FloatOps) : ∀ (ns : List RNode) (stale : Nat → Bool) (st : List St) (e : Bool) (b : BState), Bottom st →
    (∀ s, .text s ∈ ns → SafeText s) → run fo stale st e b ns ≠ .ub
  | [], stale, st, e, b, h, _ => by
    unfold run
    split
    · nofun
    · exact absurd rfl h.ne
    · nofun
  | n :: ns, stale, st, e, b, h, hs => by
    have hf := node_fine fo (stale 0) h e b n (fun s hn => hs s (by simp [hn]))
    have hs' : ∀ s, .text s ∈ ns → SafeText s := fun s hm => hs s (.tail _ hm)
    rw [run]
    refine bind_ne_ub hf.1 (fun a ha => ?_)
    split
    · exact run_fine fo ns _ _ _ _ (hf.2 a ha) hs'
    · have he := enter_fine fo.fltText a.stack a.b (hf.2 a ha)
      refine bind_ne_ub he.1 (fun x hx => ?_)
      cases x with
      | stop v => nofun
      | go st' b' => exact run_fine fo ns _ _ _ _ (he.2 _ _ hx) hs'

/-! ## Nodes that are passed over -/

/-- Comments, blanks and the like. -/
def isOther : RNode → Bool
  | .other => true
  | _ => false

theorem run_others (fo : FloatOps) : ∀ (ns : List RNode) (stale : Nat → Bool) (st : List St) (e : Bool) (b : BState),
    ∃ stale', (∀ k, ∃ j, stale' k = stale j) ∧ run fo stale st e b ns = run fo stale' st e b (ns.filter (fun n => !isOther n))
  | [], stale, _, _, _ => ⟨stale, fun k => ⟨k, rfl⟩, rfl⟩
  | n :: ns, stale, st, e, b => by
    by_cases ho : n = .other
    · subst ho
      obtain ⟨s', h1, h2⟩ := run_others fo ns (later stale 1) st e b
      exact ⟨s', fun k => (h1 k).elim fun j hj => ⟨j + 1, hj⟩, h2⟩
    · have hfil : (n :: ns).filter (fun n => !isOther n) = n :: ns.filter (fun n => !isOther n) := by
        rw [List.filter_cons, if_pos]
        cases n with
        | other => exact absurd rfl ho
        | _ => rfl
      rw [hfil]
      -- the schedule behind this node
      have key : ∀ st' e' b', ∃ s', (∀ k, ∃ j, s' k = stale j) ∧ s' 0 = stale 0 ∧
          run fo (later stale 1) st' e' b' ns = run fo (later s' 1) st' e' b' (ns.filter (fun n => !isOther n)) := by
        intro st' e' b'
        obtain ⟨s', h1, h2⟩ := run_others fo ns (later stale 1) st' e' b'
        refine ⟨fun k => if k = 0 then stale 0 else s' (k - 1), fun k => ?_, rfl, h2⟩
        by_cases hk : k = 0
        · exact ⟨0, by simp [hk]⟩
        · obtain ⟨j, hj⟩ := h1 (k - 1)
          exact ⟨j + 1, by simp only [if_neg hk]; exact hj⟩
      cases hn : node fo (stale 0) st e b n with
      | throw x => exact ⟨stale, fun k => ⟨k, rfl⟩, by rw [run, run, hn]; rfl⟩
      | ub => exact ⟨stale, fun k => ⟨k, rfl⟩, by rw [run, run, hn]; rfl⟩
      | ok a =>
        obtain ⟨l, st1, e1, b1⟩ := a
        cases l with
        | true =>
          obtain ⟨s', h1, h0, h2⟩ := key st1 e1 b1
          exact ⟨s', h1, by rw [run_loop hn, run_loop (by rw [h0]; exact hn)]; exact h2⟩
        | false =>
          cases hen : enter fo.fltText st1 b1 with
          | throw x =>
            refine ⟨stale, fun k => ⟨k, rfl⟩, ?_⟩
            rw [run, run, hn]
            simp only [Out.bind_ok, Bool.false_eq_true, if_false, hen]
            rfl
          | ub =>
            refine ⟨stale, fun k => ⟨k, rfl⟩, ?_⟩
            rw [run, run, hn]
            simp only [Out.bind_ok, Bool.false_eq_true, if_false, hen]
            rfl
          | ok x =>
            cases x with
            | stop v => exact ⟨stale, fun k => ⟨k, rfl⟩, by rw [run_stop hn hen, run_stop hn hen]⟩
            | go st2 b2 =>
              obtain ⟨s', h1, h0, h2⟩ := key st2 e1 b2
              exact ⟨s', h1, by rw [run_enter hn hen, run_enter (by rw [h0]; exact hn) hen]; exact h2⟩

end Verif.Xml
