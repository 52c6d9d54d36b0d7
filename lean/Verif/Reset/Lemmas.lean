import Verif.Reset.Model
/-!
# Lemmas about parsers that are used again
-/

namespace Verif.Reset
open Verif Verif.JsonTok Verif.JsonDrv Verif.Build

/-- The bottom handler is inside a document. -/
def Rooted (s : BState) : Prop := ∃ v, s.frames.getLast? = some (.root v true)

theorem Rooted.ne {s : BState} (h : Rooted s) : s.frames ≠ [] := by
  obtain ⟨v, h⟩ := h; intro h'; rw [h'] at h; simp at h

theorem topEvent_eq {left : Bool} {ft : UInt64 → Bytes} {s : BState} {e : PEv} (h : left = false ∨ s.frames ≠ []) :
    topEvent left ft s e = event ft s e := by
  unfold topEvent
  rcases h with h | h <;> simp [h]

theorem last_cons {α : Type} {f : α} {r : List α} {x : α} (h : (f :: r).getLast? = some x) (hr : r ≠ []) :
    r.getLast? = some x := by
  cases r with
  | nil => exact absurd rfl hr
  | cons a r => simpa using h

theorem cons_last {α : Type} (f : α) {r : List α} {x : α} (h : r.getLast? = some x) : (f :: r).getLast? = some x := by
  cases r with
  | nil => simp at h
  | cons a r => simpa using h

theorem setTop_rooted {ft : UInt64 → Bytes} {s s' : BState} {v : Val} (h : Rooted s) (he : setTop ft s v = .ok s') :
    Rooted s' := by
  obtain ⟨w, h⟩ := h
  cases hf : s.frames with
  | nil => rw [hf] at h; simp at h
  | cons f r =>
    rw [hf] at h
    simp only [setTop, hf] at he
    by_cases hr : r = []
    · subst hr
      simp at h; subst h
      simp [setVal] at he
      subst he
      exact ⟨v, by simp⟩
    · have hl := last_cons h hr
      obtain ⟨⟨f', fin⟩, h1, h2⟩ := Out.bind_eq_ok.1 he
      simp only [Out.pure_eq, Out.ok.injEq] at h2
      subst h2
      cases fin
      · exact ⟨w, cons_last _ hl⟩
      · exact ⟨w, hl⟩

theorem event_rooted {ft : UInt64 → Bytes} {s s' : BState} {e : PEv} (h : Rooted s) (hne : e ≠ .endDoc)
    (he : event ft s e = .ok s') : Rooted s' := by
  have hfin : ∀ f r, s.frames = f :: r → (∀ v b, f ≠ .root v b) → finish ft s = .ok s' → Rooted s' := by
    intro f r hf hroot he
    obtain ⟨w, h⟩ := h
    rw [hf] at h
    cases r with
    | nil => simp at h; exact absurd h (hroot w true)
    | cons g r =>
      simp only [finish, hf] at he
      exact setTop_rooted ⟨w, by simpa using h⟩ he
  have h' := h
  obtain ⟨w, h⟩ := h
  cases hf : s.frames with
  | nil => rw [hf] at h; simp at h
  | cons f r =>
    rw [hf] at h
    cases e with
    | beginDoc =>
      simp only [event, hf] at he
      cases f with
      | root v b =>
        simp at he; subst he
        by_cases hr : r = []
        · subst hr; exact ⟨v, by simp⟩
        · exact ⟨w, cons_last _ (last_cons h hr)⟩
      | map m k => simp at he; subst he; exact h'
      | list xs => simp at he; subst he; exact h'
    | endDoc => exact absurd rfl hne
    | beginMap =>
      simp only [event, hf, Out.ok.injEq] at he
      subst he
      exact ⟨w, cons_last _ h⟩
    | beginList =>
      simp only [event, hf, Out.ok.injEq] at he
      subst he
      exact ⟨w, cons_last _ h⟩
    | endMap =>
      simp only [event, hf] at he
      cases f with
      | map m k => exact hfin _ _ hf (by simp) he
      | root v b => simp at he
      | list xs => simp at he
    | endList =>
      simp only [event, hf] at he
      cases f with
      | list xs => exact hfin _ _ hf (by simp) he
      | root v b => simp at he
      | map m k => simp at he
    | scalar v =>
      simp only [event, hf] at he
      exact setTop_rooted h' he

/-- Events that do not end the document. -/
theorem topEvents_rooted {left : Bool} {ft : UInt64 → Bytes} : ∀ (es : List PEv) (s : BState), Rooted s → PEv.endDoc ∉ es →
    ∀ tl : List PEv, (∀ s', Rooted s' → topEvents left ft s' tl = events ft s' tl) →
    topEvents left ft s (es ++ tl) = events ft s (es ++ tl)
  | [], s, h, _, tl, htl => htl s h
  | e :: es, s, h, hn, tl, htl => by
    simp only [List.cons_append, topEvents, events]
    rw [topEvent_eq (.inr h.ne)]
    cases he : event ft s e with
    | throw _ => rfl
    | ub => rfl
    | ok s' =>
      simp only [Out.bind_ok]
      exact topEvents_rooted es s' (event_rooted h (fun hh => hn (by rw [hh]; exact List.mem_cons_self)) he)
        (fun hh => hn (List.mem_cons_of_mem _ hh)) tl htl

theorem topEvents_end {left : Bool} {ft : UInt64 → Bytes} {s : BState} (h : Rooted s) :
    topEvents left ft s [.endDoc] = events ft s [.endDoc] := by
  simp only [topEvents, events]
  rw [topEvent_eq (.inr h.ne)]

/-- The events of one document: nothing reaches the handlers below. -/
theorem topEvents_doc (left : Bool) (ft : UInt64 → Bytes) (es : List PEv) (h : PEv.endDoc ∉ es) :
    topEvents left ft BState.init (.beginDoc :: (es ++ [.endDoc])) = events ft BState.init (.beginDoc :: (es ++ [.endDoc])) := by
  simp only [topEvents, events]
  rw [topEvent_eq (.inr (by simp [BState.init]))]
  simp only [event, BState.init, Out.bind_ok]
  exact topEvents_rooted es _ ⟨.null, rfl⟩ h _ fun _ => topEvents_end

/-! ## JSON -/

theorem callbackEvent_ne {fo : FloatOps} {e : JEv} {ev : PEv} (h : callbackEvent fo e = .ok ev) : ev ≠ .endDoc := by
  intro hh; subst hh
  cases e <;> simp only [callbackEvent] at h <;> try (cases h; done)
  split at h
  · obtain ⟨b, _, h⟩ := Out.bind_eq_ok.1 h
    cases h
  · cases h

theorem jcallbacks_eq {left : Bool} {fo : FloatOps} : ∀ (es : List JEv) (s : BState), Rooted s →
    jcallbacks left fo s es = callbacks fo s es
  | [], _, _ => rfl
  | e :: es, s, h => by
    simp only [jcallbacks, callbacks]
    cases hc : callbackEvent fo e with
    | throw _ => rfl
    | ub => rfl
    | ok ev =>
      simp only [Out.bind_ok]
      rw [topEvent_eq (.inr h.ne)]
      cases he : event fo.fltText s ev with
      | throw _ => rfl
      | ub => rfl
      | ok s' => exact jcallbacks_eq es s' (event_rooted h (callbackEvent_ne hc) he)

theorem callbacks_rooted {fo : FloatOps} : ∀ (es : List JEv) (s s' : BState), Rooted s → callbacks fo s es = .ok s' → Rooted s'
  | [], _, _, h, he => by simp only [callbacks, Out.ok.injEq] at he; exact he ▸ h
  | e :: es, s, s', h, he => by
    simp only [callbacks] at he
    obtain ⟨ev, hc, he⟩ := Out.bind_eq_ok.1 he
    obtain ⟨s1, h1, he⟩ := Out.bind_eq_ok.1 he
    exact callbacks_rooted es s1 s' (event_rooted h (callbackEvent_ne hc) h1) he

theorem jfeed_eq {left : Bool} {fo : FloatOps} {p : JP} {c : UInt8} (h : Rooted p.build) : jfeed left fo p c = feed fo p c := by
  simp only [jfeed, feed, jcallbacks_eq _ _ h]
  cases charStep p.tok c <;> rfl

theorem feed_rooted {fo : FloatOps} {p p' : JP} {c : UInt8} (h : Rooted p.build) (he : feed fo p c = .ok p') : Rooted p'.build := by
  simp only [feed] at he
  cases hs : charStep p.tok c with
  | ub => simp [hs] at he
  | cont t evs =>
    simp only [hs] at he
    obtain ⟨q, hq, he⟩ := Out.bind_eq_ok.1 he
    obtain ⟨b, hb, hq⟩ := Out.bind_eq_ok.1 hq
    have hb := callbacks_rooted _ _ _ h hb
    simp only [Out.pure_eq, Out.ok.injEq] at hq he
    have hq : Rooted q.build := by rw [← hq]; exact hb
    subst he
    split
    · split <;> exact hq
    · exact hq
  | rej t evs =>
    simp only [hs] at he
    obtain ⟨q, hq, he⟩ := Out.bind_eq_ok.1 he
    obtain ⟨b, hb, hq⟩ := Out.bind_eq_ok.1 hq
    have hb := callbacks_rooted _ _ _ h hb
    simp only [Out.pure_eq, Out.ok.injEq] at hq he
    have hq : Rooted q.build := by rw [← hq]; exact hb
    subst he
    split <;> exact hq

theorem jrunning_eq {left : Bool} {p : JP} (h : Rooted p.build) : jrunning left p = running p := by
  simp [jrunning, running, h.ne]

theorem jparseBlock_eq {left : Bool} {fo : FloatOps} : ∀ (cs : Bytes) (p : JP), Rooted p.build →
    jparseBlock left fo p cs = parseBlock fo p cs
  | [], _, _ => rfl
  | c :: cs, p, h => by
    simp only [jparseBlock, parseBlock, jrunning_eq h, jfeed_eq h]
    split
    · cases he : feed fo p c with
      | throw _ => rfl
      | ub => rfl
      | ok p' => exact jparseBlock_eq cs p' (feed_rooted h he)
    · rfl

theorem parseBlock_rooted {fo : FloatOps} : ∀ (cs : Bytes) (p : JP) (r : JP × Bytes), Rooted p.build →
    parseBlock fo p cs = .ok r → Rooted r.1.build
  | [], _, _, h, he => by simp only [parseBlock, Out.ok.injEq] at he; exact he ▸ h
  | c :: cs, p, r, h, he => by
    simp only [parseBlock] at he
    split at he
    · obtain ⟨p', h1, he⟩ := Out.bind_eq_ok.1 he
      exact parseBlock_rooted cs p' r (feed_rooted h h1) he
    · simp only [Out.ok.injEq] at he; exact he ▸ h

theorem jparse_eq {left : Bool} {fo : FloatOps} : ∀ (bs : List Bytes) (p : JP), Rooted p.build → jparse left fo p bs = parse fo p bs
  | [], p, h => by simp only [jparse, parse, jrunning_eq h]
  | [] :: rest, p, h => by simp only [jparse, parse, jrunning_eq h]
  | (c :: cs) :: rest, p, h => by
    simp only [jparse, parse, jrunning_eq h, jparseBlock_eq _ _ h]
    split
    · cases he : parseBlock fo p (c :: cs) with
      | throw _ => rfl
      | ub => rfl
      | ok r =>
        simp only [Out.bind_ok]
        split
        · exact jparse_eq rest _ (parseBlock_rooted _ _ _ h he)
        · rfl
    · rfl

theorem atEof_build (p : JP) : (atEof p).build = p.build := by unfold atEof; split <;> rfl

theorem parse_rooted {fo : FloatOps} : ∀ (bs : List Bytes) (p : JP) (r : JP × List Bytes), Rooted p.build →
    parse fo p bs = .ok r → Rooted r.1.build
  | [], p, r, h, he => by
    simp only [parse, Out.ok.injEq] at he; subst he
    simp only
    split
    · rw [atEof_build]; exact h
    · exact h
  | [] :: rest, p, r, h, he => by
    simp only [parse, Out.ok.injEq] at he; subst he
    simp only
    split
    · rw [atEof_build]; exact h
    · exact h
  | (c :: cs) :: rest, p, r, h, he => by
    simp only [parse] at he
    split at he
    · obtain ⟨q, h1, he⟩ := Out.bind_eq_ok.1 he
      have hq := parseBlock_rooted _ _ _ h h1
      split at he
      · exact parse_rooted rest _ r hq he
      · simp only [Out.ok.injEq] at he; subst he; exact hq
    · simp only [Out.ok.injEq] at he; subst he; exact h

/-! ## Bundle headers -/

theorem readKey_mem {σ : Type} {I : Bundle.Input σ} {lf : Nat} : ∀ (fuel : Nat) (s s' : σ) (st : Bundle.St) (es : List Bundle.BEv),
    Bundle.readKey I lf fuel s = some (s', st, es) → Bundle.BEv.endDoc ∉ es ∧ st ≠ .start
  | 0, _, _, _, _, h => by simp [Bundle.readKey] at h
  | fuel + 1, s, s', st, es, h => by
    simp only [Bundle.readKey] at h
    split at h
    · cases h
    · cases h; simp
    · split at h
      · cases h
      · split at h
        · exact readKey_mem fuel _ _ _ _ h
        · split at h
          · exact readKey_mem fuel _ _ _ _ h
          · cases h; simp

theorem brun_doc {σ : Type} {I : Bundle.Input σ} {lf : Nat} : ∀ (fuel : Nat) (s : σ) (st : Bundle.St) (es : List Bundle.BEv),
    st ≠ .start → st ≠ .stop → Bundle.run I lf fuel s st = some es → ∃ mid, es = mid ++ [.endDoc] ∧ Bundle.BEv.endDoc ∉ mid
  | 0, _, _, _, _, _, h => by simp [Bundle.run] at h
  | fuel + 1, s, st, es, h1, h2, h => by
    rw [Bundle.run, if_neg h2] at h
    have key : ∀ (s' : σ) (st' : Bundle.St) (es' : List Bundle.BEv), st' ≠ .start → st' ≠ .stop → Bundle.BEv.endDoc ∉ es' →
        (Bundle.run I lf fuel s' st').map (es' ++ ·) = some es → ∃ mid, es = mid ++ [.endDoc] ∧ Bundle.BEv.endDoc ∉ mid := by
      intro s' st' es' h1' h2' hn h
      cases hr : Bundle.run I lf fuel s' st' with
      | none => rw [hr] at h; cases h
      | some r =>
        rw [hr] at h
        obtain ⟨mid, rfl, hm⟩ := brun_doc fuel _ _ _ h1' h2' hr
        simp only [Option.map_some, Option.some.injEq] at h
        exact ⟨es' ++ mid, by simp [← h], by simp [hn, hm]⟩
    cases st with
    | start => exact absurd rfl h1
    | stop => exact absurd rfl h2
    | beginMap => simp only [Bundle.step] at h; exact key _ _ _ (by simp) (by simp) (by simp) h
    | key =>
      simp only [Bundle.step] at h
      cases hk : Bundle.readKey I lf lf s with
      | none => rw [hk] at h; cases h
      | some r =>
        obtain ⟨s', st', es'⟩ := r
        rw [hk] at h
        have hm := readKey_mem _ _ _ _ _ hk
        by_cases hs : st' = .stop
        · exact absurd hs (readKey_stop _ _ _ _ _ hk)
        · exact key _ _ _ hm.2 hs hm.1 h
    | value raw =>
      simp only [Bundle.step] at h
      split at h
      · cases h
      · rename_i heq
        split at heq
        · cases heq; exact key _ _ _ (by simp) (by simp) (by simp) h
        · cases heq; exact key _ _ _ (by simp) (by simp) (by simp) h
    | list ts =>
      cases ts with
      | nil => simp only [Bundle.step] at h; exact key _ _ _ (by simp) (by simp) (by simp) h
      | cons t ts => simp only [Bundle.step] at h; exact key _ _ _ (by simp) (by simp) (by simp) h
    | endMap => simp only [Bundle.step] at h; exact key _ _ _ (by simp) (by simp) (by simp) h
    | «end» =>
      simp only [Bundle.step] at h
      cases fuel with
      | zero => simp [Bundle.run] at h
      | succ f =>
        simp only [Bundle.run, if_true, Option.map_some, Option.some.injEq] at h
        exact ⟨[], by simp [← h], by simp⟩
where
  readKey_stop {σ : Type} {I : Bundle.Input σ} {lf : Nat} : ∀ (fuel : Nat) (s s' : σ) (st : Bundle.St) (es : List Bundle.BEv),
      Bundle.readKey I lf fuel s = some (s', st, es) → st ≠ .stop
    | 0, _, _, _, _, h => by simp [Bundle.readKey] at h
    | fuel + 1, s, s', st, es, h => by
      simp only [Bundle.readKey] at h
      split at h
      · cases h
      · cases h; simp
      · split at h
        · cases h
        · split at h
          · exact readKey_stop fuel _ _ _ _ h
          · split at h
            · exact readKey_stop fuel _ _ _ _ h
            · cases h; simp

theorem brun_start {σ : Type} {I : Bundle.Input σ} {lf fuel : Nat} {s : σ} {es : List Bundle.BEv}
    (h : Bundle.run I lf fuel s .start = some es) :
    es = [] ∨ ∃ mid, es = .beginDoc :: (mid ++ [.endDoc]) ∧ Bundle.BEv.endDoc ∉ mid := by
  cases fuel with
  | zero => simp [Bundle.run] at h
  | succ fuel =>
    simp only [Bundle.run, Bundle.step] at h
    cases hg : I.get s 0 with
    | none => simp [hg] at h
    | some r =>
      obtain ⟨s', b⟩ := r
      cases b with
      | nil =>
        simp [hg] at h
        cases fuel with
        | zero => simp [Bundle.run] at h
        | succ f => simp [Bundle.run] at h; exact .inl h
      | cons c cs =>
        simp [hg] at h
        obtain ⟨r, hr, he⟩ := h
        obtain ⟨mid, rfl, hm⟩ := brun_doc _ _ _ _ (by simp) (by simp) hr
        exact .inr ⟨mid, he.symm, hm⟩

theorem pevs_mem {fo : FloatOps} : ∀ (es : List Bundle.BEv) (stale : Nat → Bool), Bundle.BEv.endDoc ∉ es →
    PEv.endDoc ∉ Bundle.pevs fo stale es
  | [], _, _ => by simp [Bundle.pevs]
  | e :: es, stale, h => by
    simp only [List.mem_cons, not_or] at h
    simp only [Bundle.pevs, List.mem_cons, not_or]
    refine ⟨?_, pevs_mem es _ h.2⟩
    cases e <;> simp [Bundle.BEv.pev] at h ⊢

theorem pevs_app {fo : FloatOps} : ∀ (es : List Bundle.BEv) (stale : Nat → Bool),
    Bundle.pevs fo stale (es ++ [.endDoc]) = Bundle.pevs fo stale es ++ [.endDoc]
  | [], _ => rfl
  | e :: es, stale => by simp only [List.cons_append, Bundle.pevs, pevs_app es]

/-! ## MessagePack -/

theorem complete_mem : ∀ fs : List Event.UFrame, PEv.endDoc ∉ (Event.complete fs).1
  | [] => by simp [Event.complete]
  | f :: fs => by
    have ih := complete_mem fs
    rw [Event.complete]
    split
    · simp
    · dsimp only
      have h1 : PEv.endDoc ∉ (if f.user - 1 = 0 then [if f.isMap = true then PEv.endMap else PEv.endList] else []) := by
        split
        · split <;> simp
        · simp
      split
      · simp only [List.mem_append, not_or]
        exact ⟨h1, ih⟩
      · exact h1

theorem ustep_mem {D : Nat} {fs : List Event.UFrame} {pk : Event.Pk} {ev : List PEv} {r : Option (List Event.UFrame)}
    (h : Event.ustep D fs pk = some (ev, r)) : PEv.endDoc ∉ ev := by
  have hc := complete_mem fs
  cases pk <;> simp only [Event.ustep] at h <;> (repeat' split at h) <;>
    first | (cases h; done) | (simp only [Option.some.injEq, Prod.mk.injEq] at h; rw [← h.1]; simp [hc])

theorem unpack_mem {D : Nat} : ∀ (pks : List Event.Pk) (fs : List Event.UFrame) (ev : List PEv) (r : List Event.Pk),
    Event.unpack D fs pks = some (ev, r) → PEv.endDoc ∉ ev
  | [], _, _, _, h => by simp [Event.unpack] at h
  | pk :: rest, fs, ev, r, h => by
    simp only [Event.unpack] at h
    split at h
    · cases h
    · rename_i hu
      cases h
      exact ustep_mem hu
    · rename_i hu
      split at h
      · cases h
      · rename_i hr
        cases h
        simp only [List.mem_append, not_or]
        exact ⟨ustep_mem hu, unpack_mem _ _ _ _ hr⟩

end Verif.Reset
