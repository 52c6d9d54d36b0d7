import Verif.Json.Step
import Verif.Json.Driver
/-!
# Invariant of the JSON parser driver (lemmas for C05, C07, C09)
-/

namespace Verif.JsonDrv
open Verif.JsonTok Verif.Build

/-- Net number of containers opened by a callback sequence. -/
def sumDelta (e : List JEv) : Int := (e.map depthDelta).sum

@[simp] theorem sumDelta_nil : sumDelta [] = 0 := rfl
theorem sumDelta_cons (x : JEv) (e : List JEv) : sumDelta (x :: e) = depthDelta x + sumDelta e := by
  simp [sumDelta]
theorem sumDelta_append (a b : List JEv) : sumDelta (a ++ b) = sumDelta a + sumDelta b := by
  induction a with
  | nil => simp
  | cons x xs ih => rw [List.cons_append, sumDelta_cons, sumDelta_cons, ih]; omega

theorem sumDelta_flatten {vs : List (List JEv)} (h : ∀ v ∈ vs, sumDelta v = 0) :
    sumDelta vs.flatten = 0 := by
  induction vs with
  | nil => rfl
  | cons x xs ih =>
    rw [List.flatten_cons, sumDelta_append, h x (by simp), ih (fun v hv => h v (by simp [hv]))]; rfl

theorem sumDelta_pairs {ps : List (Bytes × List JEv)} (h : ∀ p ∈ ps, sumDelta p.2 = 0) :
    sumDelta (ps.flatMap fun p => JEv.key p.1 :: p.2) = 0 := by
  induction ps with
  | nil => rfl
  | cons x xs ih =>
    rw [List.flatMap_cons, sumDelta_append, sumDelta_cons, h x (by simp),
      ih (fun v hv => h v (by simp [hv]))]; rfl

theorem sumDelta_value {e : List JEv} (h : IsValue e) : sumDelta e = 0 := by
  induction h with
  | scalar e h => cases e <;> first | rfl | simp [JEv.isScalar] at h
  | arr vs h ih =>
    rw [sumDelta_cons, sumDelta_append, sumDelta_flatten ih]; rfl
  | obj ps h ih =>
    rw [sumDelta_cons, sumDelta_append, sumDelta_pairs ih]; rfl

/-- The open containers are counted by the mode stack. -/
theorem Pt_depth {s : List Mode} {ph : Ph} {e : List JEv} (h : Pt s ph e) :
    sumDelta e + 1 = s.length := by
  have hv : ∀ {vs : List (List JEv)}, (∀ v ∈ vs, IsValue v) → sumDelta vs.flatten = 0 :=
    fun h => sumDelta_flatten fun v hv => sumDelta_value (h v hv)
  have hp : ∀ {ps : List (Bytes × List JEv)}, (∀ p ∈ ps, IsValue p.2) →
      sumDelta (ps.flatMap fun p => JEv.key p.1 :: p.2) = 0 :=
    fun h => sumDelta_pairs fun v hv => sumDelta_value (h v hv)
  induction s generalizing ph e with
  | nil => exact h.elim
  | cons m r ih =>
    cases m with
    | done =>
      cases r with
      | nil =>
        cases ph with
        | need => simp only [Pt] at h; subst h; rfl
        | «have» => simp [sumDelta_value h.1]
      | cons x y => cases ph <;> exact h.elim
    | array =>
      simp only [Pt] at h
      obtain ⟨e0, vs, _, h0, h1, rfl⟩ := h
      have := ih h0
      rw [sumDelta_append, sumDelta_cons, hv h1]
      simp only [depthDelta, List.length_cons]; omega
    | key =>
      cases ph <;> simp only [Pt] at h
      · obtain ⟨e0, ps, _, h0, h1, rfl⟩ := h
        have := ih h0
        rw [sumDelta_append, sumDelta_cons, hp h1]
        simp only [depthDelta, List.length_cons]; omega
      · obtain ⟨e0, ps, k, _, h0, h1, rfl⟩ := h
        have := ih h0
        rw [sumDelta_append, sumDelta_cons, sumDelta_append, hp h1]
        simp only [depthDelta, List.length_cons, sumDelta_cons, sumDelta_nil]; omega
    | object =>
      cases ph <;> simp only [Pt] at h
      · obtain ⟨e0, ps, k, _, h0, h1, rfl⟩ := h
        have := ih h0
        rw [sumDelta_append, sumDelta_cons, sumDelta_append, hp h1]
        simp only [depthDelta, List.length_cons, sumDelta_cons, sumDelta_nil]; omega
      · obtain ⟨e0, ps, _, h0, h1, rfl⟩ := h
        have := ih h0
        rw [sumDelta_append, sumDelta_cons, hp h1]
        simp only [depthDelta, List.length_cons]; omega

theorem Pos_depth {st : Int} {s : List Mode} {e : List JEv} (h : Pos st s e) : sumDelta e + 1 = s.length := by
  rcases h with ⟨_, rfl, rfl⟩ | ⟨_, _, h⟩ | ⟨_, _, h⟩ | ⟨_, _, h⟩ | ⟨_, _, h⟩ | ⟨_, _, h⟩ | ⟨_, _, h⟩
  · rfl
  all_goals exact Pt_depth h

theorem Shape_depth {t : Tok} {e : List JEv} (h : Shape t e) : sumDelta e + 1 = t.stack.length := by
  rcases h with ⟨_, _, h⟩ | ⟨_, _, _, _, h⟩ | ⟨_, _, _, _, h⟩ | ⟨_, _, _, _, _, h⟩ | ⟨_, _, _, _, h⟩ |
    ⟨_, _, _, _, h⟩ | ⟨_, _, _, _, h⟩ | ⟨_, _, _, _, h⟩ | ⟨_, _, _, _, h⟩ | ⟨_, _, _, _, h⟩ | ⟨_, _, _, _, h⟩
  case inl => exact Pos_depth h
  all_goals first | exact Pt_depth h | exact Pos_depth h

/-- No callback made yet: at the start of the text, or in a comment there. -/
theorem Pt_nil {s : List Mode} {ph : Ph} (h : Pt s ph []) : s = [.done] ∧ ph = .need := by
  match s, ph, h with
  | [.done], .need, _ => exact ⟨rfl, rfl⟩
  | [.done], .have, h =>
    obtain ⟨h, h2⟩ := h
    simp at h2
  | .array :: s, _, h => simp only [Pt] at h; obtain ⟨e0, vs, _, _, _, h⟩ := h; simp at h
  | .key :: s, .need, h => simp only [Pt] at h; obtain ⟨e0, vs, _, _, _, h⟩ := h; simp at h
  | .key :: s, .have, h => simp only [Pt] at h; obtain ⟨e0, vs, k, _, _, _, h⟩ := h; simp at h
  | .object :: s, .need, h => simp only [Pt] at h; obtain ⟨e0, vs, k, _, _, _, h⟩ := h; simp at h
  | .object :: s, .have, h => simp only [Pt] at h; obtain ⟨e0, vs, _, _, _, h⟩ := h; simp at h

theorem Pos_nil {st : Int} {s : List Mode} (h : Pos st s []) : st = GO ∧ s = [.done] := by
  rcases h with ⟨h1, h2, _⟩ | ⟨_, ⟨r, h1⟩, h⟩ | ⟨_, ⟨r, h1⟩, h⟩ | ⟨_, ⟨r, h1⟩, h⟩ | ⟨_, ⟨r, h1⟩, h⟩ | ⟨_, ⟨r, h1⟩, h⟩ | ⟨_, _, h⟩
  · exact ⟨h1, h2⟩
  all_goals have := Pt_nil h
  all_goals simp_all

theorem Shape_nil {t : Tok} (h : Shape t []) :
    (NC t ∧ t.type = .none ∧ t.state = GO ∧ t.stack = [.done]) ∨
    (t.escaped = false ∧ t.comment = true ∧ t.state ∈ [C1, C2, C3] ∧ t.type = .none ∧
      t.bcs = GO ∧ t.stack = [.done]) := by
  have hv : ∀ s, VPos s [] → False := by
    rintro s ⟨⟨r, h⟩, h2⟩
    have := (Pt_nil h2).1
    simp_all
  have hs : ∀ s, SPos s [] → False := by
    rintro s ⟨⟨r, h⟩ | ⟨r, h⟩, h2⟩
    all_goals have := (Pt_nil h2).1
    all_goals simp_all
  rcases h with ⟨h1, h2, h⟩ | ⟨_, _, _, h⟩ | ⟨_, _, _, h⟩ | ⟨_, _, _, _, h⟩ | ⟨_, _, _, h⟩ |
    ⟨_, _, _, h⟩ | ⟨_, _, _, h⟩ | ⟨_, _, _, h⟩ | ⟨_, _, _, h⟩ | ⟨_, _, _, h⟩ | ⟨h1, h2, h3, h4, h⟩
  case inl => exact .inl ⟨h1, h2, Pos_nil h⟩
  case inr.inr.inr.inr.inr.inr.inr.inr.inr.inr => exact .inr ⟨h1, h2, h3, h4, Pos_nil h⟩
  all_goals first | exact (hv _ h).elim | exact (hs _ h).elim

theorem rej_nil_row : ∀ k : Fin 32, (k.val = 0 ∨ k.val = 1 → entry 0 k.val = GO) ∧
    (entry 0 k.val ∈ [GO, -6, -5, CB, XX]) := by decide +kernel

/-- A rejection before the first callback makes no callback and leaves the tokenizer where it
was (except for the text buffer). -/
theorem rej_nil {t : Tok} {c : UInt8} {t' : Tok} {e' : List JEv} (h : Shape t [])
    (hr : charStep t c = .rej t' e') : e' = [] ∧ Shape t' [] := by
  obtain ⟨k, hc, hk1, hk2⟩ := class_ok c
  by_cases hk : k = -1
  · subst hk
    unfold charStep at hr
    rw [hc] at hr
    simp at hr
    obtain ⟨rfl, rfl⟩ := hr
    exact ⟨rfl, h⟩
  obtain ⟨n, rfl⟩ := Int.eq_ofNat_of_zero_le (show 0 ≤ k by omega)
  have hk : n < 32 := by omega
  rcases Shape_nil h with ⟨h1, h2, h3, h4⟩ | ⟨h1, h2, h3, h4, h5, h6⟩
  · have hrow := rej_nil_row ⟨n, hk⟩
    have hR := step_R c h
    by_cases hw : n = 0 ∨ n = 1
    · rw [charStep_eq (s := 0) hc hk (addChar_white c n h1 h2 (by omega)) h3 (by omega),
        show entry 0 n = GO from hrow.1 hw] at hr
      simp at hr
    · rw [charStep_eq (s := 0) hc hk (addChar_black c n h1 (by omega)) h3 (by omega)] at hr
      have h' := hrow.2
      simp only [List.mem_cons, List.not_mem_nil, or_false] at h'
      rcases h' with h' | h' | h' | h' | h' <;> rw [h'] at hr
      · simp at hr
      · rw [if_neg (by decide)] at hr
        have : actObjBegin (pushBack t c) = .rej t' e' := hr
        simp [actObjBegin, orUb, assertThen, h2] at this
      · rw [if_neg (by decide)] at hr
        have : actArrBegin (pushBack t c) = .rej t' e' := hr
        simp [actArrBegin, orUb, assertThen, h2] at this
      · rw [if_neg (by decide)] at hr
        have : actCommentBegin (pushBack t c) = .rej t' e' := hr
        simp [actCommentBegin, orUb, assertThen, h2, parseBuffer, h4] at this
      · rw [if_neg (by decide), action_rej] at hr
        simp at hr
        obtain ⟨rfl, rfl⟩ := hr
        exact ⟨rfl, .inl ⟨h1, h2, .inl ⟨h3, h4, rfl⟩⟩⟩
  · have hs : ∃ s : Nat, t.state = (s : Int) ∧ s ∈ [30, 31, 32] := by
      simp only [List.mem_cons, List.not_mem_nil, or_false] at h3
      rcases h3 with h | h | h
      · exact ⟨30, h, by simp⟩
      · exact ⟨31, h, by simp⟩
      · exact ⟨32, h, by simp⟩
    obtain ⟨s, hs, hs2⟩ := hs
    rw [charStep_eq hc hk (addChar_comment c n h1 h2) hs (by simp at hs2; omega)] at hr
    have hrow := row_C ⟨n, hk⟩ s hs2
    simp only [List.mem_cons, List.not_mem_nil, or_false] at hrow
    rcases hrow with h' | h' | h' | h' <;> rw [h'] at hr
    · simp at hr
    · simp at hr
    · rw [if_neg (by decide)] at hr
      have : actCommentEnd t = .rej t' e' := hr
      unfold actCommentEnd assertThen at this
      split at this <;> simp at this
    · rw [if_neg (by decide), action_rej] at hr
      simp at hr
      obtain ⟨rfl, rfl⟩ := hr
      exact ⟨rfl, h⟩

/-! ## Callbacks -/

theorem callbacks_append (fo : FloatOps) (s : BState) (a b : List JEv) :
    callbacks fo s (a ++ b) = (callbacks fo s a >>= fun s' => callbacks fo s' b) := by
  induction a generalizing s with
  | nil => simp [callbacks]
  | cons x xs ih => simp [callbacks, ih]

/-- A parser that is still reading. -/
structure Inv (fo : FloatOps) (b0 : BState) (p : JP) : Prop where
  shape : Shape p.tok p.log
  depth : p.depth = sumDelta p.log
  begun : p.status = .begin → p.log = []
  okay : p.status = .ok → p.log ≠ []
  live : p.status = .begin ∨ p.status = .ok
  built : callbacks fo b0 p.log = .ok p.build

/-- A parser that has stopped with a complete document. -/
structure Fin (fo : FloatOps) (b0 : BState) (p : JP) : Prop where
  ended : p.status = .end
  doc : IsDoc p.log
  built : callbacks fo b0 p.log = .ok p.build

theorem isDone_doc {t : Tok} {e : List JEv} (h : Shape t e) (hd : isDone t = true) : IsDoc e := by
  unfold isDone at hd
  simp only [Bool.and_eq_true, decide_eq_true_eq] at hd
  obtain ⟨h1, h2⟩ := hd
  have hst : ∃ r, t.stack = .done :: r := by
    cases hs : t.stack with
    | nil => rw [hs] at h2; simp at h2
    | cons m r => rw [hs] at h2; cases m <;> simp at h2; exact ⟨r, rfl⟩
  obtain ⟨r, hst⟩ := hst
  have hv : VPos t.stack e → False := by
    rintro ⟨⟨r, h⟩, h2⟩
    rw [hst] at h; simp at h
  have hs : SPos t.stack e → False := by
    rintro ⟨⟨r, h⟩ | ⟨r, h⟩, h2⟩ <;> rw [hst] at h <;> simp at h
  rcases h with ⟨_, _, h⟩ | ⟨_, _, _, h⟩ | ⟨_, _, _, h⟩ | ⟨_, _, _, _, h⟩ | ⟨_, _, _, h⟩ |
    ⟨_, _, _, h⟩ | ⟨_, _, _, h⟩ | ⟨_, _, _, h⟩ | ⟨_, _, _, h⟩ | ⟨_, _, _, h⟩ | ⟨_, _, h3, _, _⟩
  case inl =>
    rcases h with ⟨h, _⟩ | ⟨h, _⟩ | ⟨h, _⟩ | ⟨h, _⟩ | ⟨h, _⟩ | ⟨h, _⟩ | ⟨_, _, h⟩
    case inr.inr.inr.inr.inr.inr =>
      rw [hst] at h
      cases r with
      | nil => exact h
      | cons x y => exact h.elim
    all_goals rw [h] at h1; exact absurd h1 (by decide)
  case inr.inr.inr.inr.inr.inr.inr.inr.inr.inr =>
    rw [h1] at h3; exact absurd h3 (by decide)
  all_goals first | exact (hv h).elim | exact (hs h).elim

/-- The callbacks of one character, on a parser that is still reading. -/
theorem after_built {fo : FloatOps} {b0 : BState} {p : JP} (h : Inv fo b0 p) {evs : List JEv} {b : BState}
    (hb : callbacks fo p.build evs = .ok b) : callbacks fo b0 (p.log ++ evs) = .ok b := by
  rw [callbacks_append, h.built]; simpa using hb

theorem feed_inv {fo : FloatOps} {b0 : BState} {p p' : JP} {c : UInt8} (h : Inv fo b0 p)
    (hf : feed fo p c = .ok p') : Inv fo b0 p' ∨ Fin fo b0 p' ∨ p'.status = .error := by
  have hR := step_R c h.shape
  unfold feed at hf
  simp only at hf
  split at hf
  · cases hf
  · rename_i t evs hc
    rw [hc] at hR
    obtain ⟨hs, _⟩ := hR
    simp only [Out.bind_eq_ok] at hf
    obtain ⟨p1, ⟨b, hb, hp1⟩, hf⟩ := hf
    have hb' := after_built h hb
    have hp1 := Out.ok.inj hp1
    have hf := Out.ok.inj hf
    generalize hst : (if evs ≠ [] ∧ p.status = .begin then Status.ok else p.status) = st at hp1
    subst hp1
    simp only at hf
    have hdep : p.depth + (evs.map depthDelta).sum = sumDelta (p.log ++ evs) := by
      rw [sumDelta_append, h.depth]; rfl
    split at hf
    · split at hf
      · rename_i hd
        subst hf
        exact .inr (.inl ⟨rfl, isDone_doc hs hd, hb'⟩)
      · subst hf; exact .inr (.inr rfl)
    · subst hf
      refine .inl ⟨hs, hdep, ?_, ?_, ?_, hb'⟩
      · intro h0
        have h0 : st = .begin := h0
        subst hst
        split at h0
        · cases h0
        · rename_i hn
          have := h.begun h0
          simp only [this]
          by_cases he : evs = []
          · simp [he]
          · exact absurd ⟨he, h0⟩ hn
      · intro h0
        have h0 : st = .ok := h0
        subst hst
        split at h0
        · rename_i hn; simp [hn.1]
        · have := h.okay h0; simp [this]
      · show st = _ ∨ st = _
        subst hst
        split
        · exact .inr rfl
        · exact h.live
  · rename_i t evs hc
    simp only [Out.bind_eq_ok] at hf
    obtain ⟨p1, ⟨b, hb, hp1⟩, hf⟩ := hf
    have hb' := after_built h hb
    have hp1 := Out.ok.inj hp1
    have hf := Out.ok.inj hf
    generalize hst : (if evs ≠ [] ∧ p.status = .begin then Status.ok else p.status) = st at hp1
    subst hp1
    simp only at hf
    split at hf
    · subst hf; exact .inr (.inr rfl)
    · rename_i hne
      have hbeg : p.status = .begin := by
        rcases h.live with h | h
        · exact h
        · exfalso; apply hne; rw [← hst, h]; simp
      have hlog := h.begun hbeg
      have hs := h.shape
      rw [hlog] at hs
      obtain ⟨rfl, hs'⟩ := rej_nil hs hc
      have hst' : st = .begin := by rw [← hst]; simp [hbeg]
      subst hf
      refine .inl ⟨?_, ?_, ?_, ?_, ?_, hb'⟩
      · simp only [hlog]; exact hs'
      · simp only [hlog]; have := h.depth; rw [hlog] at this; simpa using this
      · intro _; simp [hlog]
      · intro h0; have h0 : st = .ok := h0; rw [hst'] at h0; cases h0
      · exact .inl hst'

/-- What `parseBlock` and `parse` leave behind. -/
def Good (fo : FloatOps) (b0 : BState) (p : JP) : Prop := Inv fo b0 p ∨ Fin fo b0 p ∨ p.status = .error

theorem Good.inv {fo : FloatOps} {b0 : BState} {p : JP} (h : Good fo b0 p) (hr : running p = true) :
    Inv fo b0 p := by
  simp [running] at hr
  rcases h with h | h | h
  · exact h
  · rw [h.ended] at hr; simp at hr
  · rw [h] at hr; simp at hr

theorem parseBlock_good {fo : FloatOps} {b0 : BState} {p p' : JP} {cs left : Bytes} (h : Good fo b0 p)
    (hf : parseBlock fo p cs = .ok (p', left)) : Good fo b0 p' := by
  induction cs generalizing p with
  | nil => simp [parseBlock] at hf; obtain ⟨rfl, rfl⟩ := hf; exact h
  | cons c cs ih =>
    unfold parseBlock at hf
    split at hf
    · rename_i hr
      simp only [Out.bind_eq_ok] at hf
      obtain ⟨p1, h1, h2⟩ := hf
      exact ih (feed_inv (h.inv hr) h1) h2
    · simp at hf; obtain ⟨rfl, rfl⟩ := hf; exact h

theorem atEof_good {fo : FloatOps} {b0 : BState} {p : JP} (h : Inv fo b0 p) : Good fo b0 (atEof p) := by
  unfold atEof
  split
  · rename_i hd; exact .inr (.inl ⟨rfl, isDone_doc h.shape hd, h.built⟩)
  · exact .inr (.inr rfl)

theorem parse_good {fo : FloatOps} {b0 : BState} {p p' : JP} {bs left : List Bytes} (h : Good fo b0 p)
    (hf : parse fo p bs = .ok (p', left)) : Good fo b0 p' := by
  have key : Good fo b0 (if running p then atEof p else p) := by
    split
    · rename_i hr; exact atEof_good (h.inv hr)
    · exact h
  induction bs generalizing p with
  | nil => simp [parse] at hf; obtain ⟨rfl, rfl⟩ := hf; exact key
  | cons b bs ih =>
    cases b with
    | nil => simp [parse] at hf; obtain ⟨rfl, rfl⟩ := hf; exact key
    | cons c cs =>
      unfold parse at hf
      split at hf
      · simp only [Out.bind_eq_ok] at hf
        obtain ⟨⟨p1, l1⟩, h1, h2⟩ := hf
        simp only at h2
        have hg := parseBlock_good h h1
        split at h2
        · refine ih hg h2 ?_
          split
          · rename_i hr; exact atEof_good (hg.inv hr)
          · exact hg
        · simp at h2; obtain ⟨rfl, _⟩ := h2; exact hg
      · simp at hf; obtain ⟨rfl, _⟩ := hf; exact h

/-- The parser after `BeginDocument`. -/
def started : JP := { JP.init with status := .begin, build := ⟨[.root .null true], .null, false⟩ }

theorem started_inv (fo : FloatOps) : Inv fo started.build started :=
  ⟨.inl ⟨⟨rfl, rfl⟩, rfl, .inl ⟨rfl, rfl, rfl⟩⟩, rfl, fun _ => rfl, nofun, .inl rfl, rfl⟩

theorem deserialize_eq (fo : FloatOps) (bs : List Bytes) :
    deserialize fo bs = (parse fo started bs >>= fun r =>
      match r.1.status with
      | .end => (event fo.fltText r.1.build .endDoc >>= fun b => pure (b.result, r.2))
      | _ => .throw .runtime) := by
  unfold deserialize
  have : event fo.fltText BState.init .beginDoc = .ok started.build := rfl
  rw [this, Out.bind_ok]
  show (parse fo started bs >>= _) = _
  congr 1
  funext r
  obtain ⟨p, l⟩ := r
  cases h : p.status <;> simp [h]

end Verif.JsonDrv
