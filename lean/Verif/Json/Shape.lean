import Verif.Json.Safe
import Verif.Json.EventSpec
/-!
# Tokenizer invariant: state, mode stack and delivered events (lemmas for C07 and C09)
-/

namespace Verif.JsonTok

/-- Does the innermost open container still wait for a key or value (`need`), or was one just
completed (`have`)? -/
inductive Ph where
  | need | have

/-- The innermost mode takes a key. -/
def keyTop (s : List Mode) : Prop := ∃ r, s = .key :: r

/-- The events delivered so far, given the open containers: completed contents of each. -/
def Pt : List Mode → Ph → List JEv → Prop
  | [.done], .need, e => e = []
  | [.done], .have, e => IsDoc e
  | .array :: s, _, e => ∃ e0 vs, ¬ keyTop s ∧ Pt s .need e0 ∧ (∀ v ∈ vs, IsValue v) ∧
      e = e0 ++ .arrBegin :: List.flatten vs
  | .key :: s, .need, e => ∃ e0, ∃ ps : List (Bytes × List JEv), ¬ keyTop s ∧ Pt s .need e0 ∧
      (∀ p ∈ ps, IsValue p.2) ∧ e = e0 ++ .objBegin :: ps.flatMap fun p => .key p.1 :: p.2
  | .key :: s, .have, e => ∃ e0, ∃ ps : List (Bytes × List JEv), ∃ k, ¬ keyTop s ∧ Pt s .need e0 ∧
      (∀ p ∈ ps, IsValue p.2) ∧
      e = e0 ++ .objBegin :: ((ps.flatMap fun p => .key p.1 :: p.2) ++ [.key k])
  | .object :: s, .need, e => ∃ e0, ∃ ps : List (Bytes × List JEv), ∃ k, ¬ keyTop s ∧ Pt s .need e0 ∧
      (∀ p ∈ ps, IsValue p.2) ∧
      e = e0 ++ .objBegin :: ((ps.flatMap fun p => .key p.1 :: p.2) ++ [.key k])
  | .object :: s, .have, e => ∃ e0, ∃ ps : List (Bytes × List JEv), ¬ keyTop s ∧ Pt s .need e0 ∧
      (∀ p ∈ ps, IsValue p.2) ∧ e = e0 ++ .objBegin :: ps.flatMap fun p => .key p.1 :: p.2
  | _, _, _ => False

/-- The innermost mode takes a value. -/
def valTop (s : List Mode) : Prop := ∃ r, s = .array :: r ∨ s = .object :: r


/-- A value is being read. -/
def VPos (s : List Mode) (e : List JEv) : Prop := valTop s ∧ Pt s .need e

/-- A string (key or value) is being read. -/
def SPos (s : List Mode) (e : List JEv) : Prop := (valTop s ∨ keyTop s) ∧ Pt s .need e

/-- Between tokens. -/
def Pos (st : Int) (s : List Mode) (e : List JEv) : Prop :=
  (st = GO ∧ s = [.done] ∧ e = []) ∨
  (st = OB ∧ keyTop s ∧ Pt s .need e) ∨
  (st = KE ∧ keyTop s ∧ Pt s .need e) ∨
  (st = CO ∧ keyTop s ∧ Pt s .have e) ∨
  (st = VA ∧ VPos s e) ∨
  (st = AR ∧ (∃ r, s = .array :: r) ∧ Pt s .need e) ∨
  (st = OK ∧ ¬ keyTop s ∧ Pt s .have e)

def scalarType (j : JT) : Prop :=
  j = .int ∨ j = .uint ∨ j = .float ∨ j = .null ∨ j = .tru ∨ j = .fals

/-- State, flags, type, stack and delivered events fit together. -/
def Shape (t : Tok) (e : List JEv) : Prop :=
  (NC t ∧ t.type = .none ∧ Pos t.state t.stack e) ∨
  (NC t ∧ t.state = OK ∧ scalarType t.type ∧ VPos t.stack e) ∨
  (NC t ∧ t.state ∈ [ST, D1, D2, U1, U2, U3, U4] ∧ t.type = .string ∧ SPos t.stack e) ∨
  (t.escaped = true ∧ t.comment = false ∧ t.state = ES ∧ t.type = .string ∧ SPos t.stack e) ∨
  (NC t ∧ t.state = MI ∧ t.type = .int ∧ VPos t.stack e) ∨
  (NC t ∧ t.state ∈ [ZE, IT] ∧ (t.type = .int ∨ t.type = .uint) ∧ VPos t.stack e) ∨
  (NC t ∧ t.state ∈ [FR, E1, E2, E3, FX] ∧ t.type = .float ∧ VPos t.stack e) ∨
  (NC t ∧ t.state ∈ [T1, T2, T3] ∧ t.type = .tru ∧ VPos t.stack e) ∨
  (NC t ∧ t.state ∈ [F1, F2, F3, F4] ∧ t.type = .fals ∧ VPos t.stack e) ∨
  (NC t ∧ t.state ∈ [N1, N2, N3] ∧ t.type = .null ∧ VPos t.stack e) ∨
  (t.escaped = false ∧ t.comment = true ∧ t.state ∈ [C1, C2, C3] ∧ t.type = .none ∧
    Pos t.bcs t.stack e)

/-- The text buffer fits the state and type. -/
def BufOk (t : Tok) : Prop :=
  (t.type = .none → t.buf = []) ∧
  (t.state = MI → t.buf = [45]) ∧
  (t.type = .int → t.state ≠ MI → NumText true t.buf) ∧
  (t.type = .uint → NumText false t.buf) ∧
  (t.state = ES → t.buf ≠ []) ∧
  (t.state = D2 → t.buf ≠ []) ∧
  (t.state = U1 → HexTail 0 t.buf) ∧
  (t.state = U2 → HexTail 1 t.buf) ∧
  (t.state = U3 → HexTail 2 t.buf) ∧
  (t.state = U4 → HexTail 3 t.buf)

/-- What one step from `t` (events so far `e`) may do. -/
def R (t : Tok) (e : List JEv) (r : StepR) : Prop :=
  match r with
  | .ub => ¬ BufOk t
  | .rej _ _ => True
  | .cont t' e' => Shape t' (e ++ e') ∧ (BufOk t → BufOk t')

/-- States whose buffer contents are constrained. -/
def special (s : Int) : Bool := [MI, ES, D2, U1, U2, U3, U4].contains s

theorem bufOk_of {t : Tok} (h1 : t.type = .none → t.buf = []) (h2 : t.type = .int → NumText true t.buf)
    (h3 : t.type = .uint → NumText false t.buf) (hs : special t.state = false) : BufOk t := by
  simp only [special, List.contains_eq_mem, List.mem_cons, List.not_mem_nil, or_false,
    decide_eq_false_iff_not, not_or] at hs
  simp [BufOk, hs]
  exact ⟨h1, h2, h3⟩

theorem bufOk_idle {t : Tok} (h1 : t.type = .none) (h2 : t.buf = [])
    (hs : special t.state = false) : BufOk t :=
  bufOk_of (fun _ => h2) (by simp [h1]) (by simp [h1]) hs

/-! ## Completing a value -/

theorem Pt_value {s e v} (h : VPos s e) (hv : IsValue v) : Pt s .have (e ++ v) := by
  obtain ⟨⟨r, rfl | rfl⟩, h⟩ := h
  · obtain ⟨e0, vs, hk, h0, h1, rfl⟩ := h
    refine ⟨e0, vs ++ [v], hk, h0, ?_, by simp⟩
    intro w hw
    rcases List.mem_append.1 hw with hw | hw
    · exact h1 w hw
    · simp at hw; subst hw; exact hv
  · obtain ⟨e0, ps, k, hk, h0, h1, rfl⟩ := h
    refine ⟨e0, ps ++ [(k, v)], hk, h0, ?_, by simp⟩
    intro w hw
    rcases List.mem_append.1 hw with hw | hw
    · exact h1 w hw
    · simp at hw; subst hw; exact hv

/-- Positions where a container may start or has started. -/
theorem Pt_container {s e v} (h : Pt s .need e) (hk : ¬ keyTop s) (hv : IsValue v)
    (hc : v.head? = some .arrBegin ∨ v.head? = some .objBegin) : Pt s .have (e ++ v) := by
  match s, h with
  | [.done], h => simp only [Pt] at h; subst h; exact ⟨hv, hc⟩
  | .array :: r, h => exact Pt_value ⟨⟨r, .inl rfl⟩, h⟩ hv
  | .object :: r, h => exact Pt_value ⟨⟨r, .inr rfl⟩, h⟩ hv
  | .key :: r, _ => exact absurd ⟨r, rfl⟩ hk

/-! ## Flushing the buffer -/

/-- A value is complete, or a scalar is complete but still buffered. -/
def Settle (t : Tok) (e : List JEv) : Prop :=
  t.state ≠ MI ∧
  ((t.type = .none ∧ ¬ keyTop t.stack ∧ Pt t.stack .have e) ∨ (scalarType t.type ∧ VPos t.stack e))

theorem VPos.not_key {s e} (h : VPos s e) : ¬ keyTop s := by
  obtain ⟨⟨r, rfl | rfl⟩, _⟩ := h <;> rintro ⟨r', h⟩ <;> simp at h

theorem settle {t : Tok} {e : List JEv} (h : Settle t e) :
    (parseBuffer t = none ∧ ¬ BufOk t) ∨
    ∃ pe, parseBuffer t = some ({ t with buf := [] }, pe) ∧ Pt t.stack .have (e ++ pe) ∧
      ¬ keyTop t.stack := by
  obtain ⟨hm, ⟨h1, h2, h3⟩ | ⟨h1, h2⟩⟩ := h
  · right
    exact ⟨[], by simp [parseBuffer, h1], by simpa using h3, h2⟩
  · have hv := fun x hx => Pt_value h2 (.scalar x hx)
    rcases h1 with h1 | h1 | h1 | h1 | h1 | h1
    · cases hs : scanI64 t.buf with
      | none =>
        left
        refine ⟨by simp [parseBuffer, h1, hs], ?_⟩
        intro hb
        exact scanDec_ne_none _ _ (hb.2.2.1 h1 hm) hs
      | some i => exact .inr ⟨[.int i], by simp [parseBuffer, h1, hs], hv _ rfl, h2.not_key⟩
    · cases hs : scanU64 t.buf with
      | none =>
        left
        refine ⟨by simp [parseBuffer, h1, hs], ?_⟩
        intro hb
        have := scanDec_ne_none 0 (2 ^ 64 - 1) (hb.2.2.2.1 h1)
        simp [scanU64] at hs
        exact this hs
      | some i => exact .inr ⟨[.uint i], by simp [parseBuffer, h1, hs], hv _ rfl, h2.not_key⟩
    · exact .inr ⟨[.float t.buf], by simp [parseBuffer, h1], hv _ rfl, h2.not_key⟩
    · exact .inr ⟨[.null], by simp [parseBuffer, h1], hv _ rfl, h2.not_key⟩
    · exact .inr ⟨[.tru], by simp [parseBuffer, h1], hv _ rfl, h2.not_key⟩
    · exact .inr ⟨[.fals], by simp [parseBuffer, h1], hv _ rfl, h2.not_key⟩

theorem Settle.not_string {t : Tok} {e : List JEv} (h : Settle t e) : t.type ≠ .string := by
  obtain ⟨_, ⟨h1, _⟩ | ⟨h1, _⟩⟩ := h
  · simp [h1]
  · rcases h1 with h1 | h1 | h1 | h1 | h1 | h1 <;> simp [h1]

/-! ## The actions -/

section
variable {t : Tok} {e : List JEv} (c : UInt8)

theorem act_m6 (hn : NC t) (ht : t.type = .none) (hk : ¬ keyTop t.stack) (hp : Pt t.stack .need e) :
    R t e (actObjBegin (pushBack t c)) := by
  simp only [actObjBegin, popBack_pushBack, orUb, assertThen, ht, if_true]
  refine ⟨.inl ⟨hn, rfl, .inr (.inl ⟨rfl, ⟨_, rfl⟩, ?_⟩)⟩, fun hb => ?_⟩
  · exact ⟨e, [], hk, hp, by simp, by simp⟩
  · exact bufOk_idle rfl (hb.1 ht) rfl

theorem act_m5 (hn : NC t) (ht : t.type = .none) (hk : ¬ keyTop t.stack) (hp : Pt t.stack .need e) :
    R t e (actArrBegin (pushBack t c)) := by
  simp only [actArrBegin, popBack_pushBack, orUb, assertThen, ht, if_true]
  refine ⟨.inl ⟨hn, rfl, .inr (.inr (.inr (.inr (.inr (.inl ⟨rfl, ⟨_, rfl⟩, ?_⟩)))))⟩, fun hb => ?_⟩
  · exact ⟨e, [], hk, hp, by simp, by simp⟩
  · exact bufOk_idle rfl (hb.1 ht) rfl

theorem act_SB (hn : NC t) (ht : t.type = .none) (hp : SPos t.stack e) :
    R t e (actStrBegin (pushBack t c)) := by
  simp only [actStrBegin, assertThen, show (pushBack t c).type = .none from ht, if_true]
  refine ⟨.inr (.inr (.inl ⟨hn, by simp, rfl, by simpa [pushBack] using hp⟩)), fun hb => ?_⟩
  exact bufOk_of nofun nofun nofun rfl

theorem act_CE (h1 : t.escaped = false) (ht : t.type = .none)
    (hp : Pos t.bcs t.stack e) : R t e (actCommentEnd t) := by
  unfold actCommentEnd assertThen
  by_cases hb : t.buf = []
  · rw [if_pos ⟨hb, ht⟩]
    refine ⟨.inl ⟨⟨h1, rfl⟩, ht, by simpa using hp⟩, fun _ => bufOk_idle ht hb ?_⟩
    rcases hp with h | h | h | h | h | h | h <;> simp only [h.1] <;> rfl
  · rw [if_neg (fun h => hb h.1)]
    exact fun h => hb (h.1 ht)

/-- Shape of a comment that has just begun. -/
theorem shape_comment {e : List JEv} (h1 : t.escaped = false) (b : Int) (hp : Pos b t.stack e) :
    Shape { t with bcs := b, type := .none, state := C1, comment := true, buf := [] } e :=
  .inr (.inr (.inr (.inr (.inr (.inr (.inr (.inr (.inr (.inr ⟨h1, rfl, by simp, rfl, hp⟩)))))))))

/-- A comment between tokens. -/
theorem act_CB_idle (hn : NC t) (ht : t.type = .none) (hp : Pos t.state t.stack e) :
    R t e (actCommentBegin (pushBack t c)) := by
  have e1 : parseBuffer t = some ({ t with buf := [] }, []) := by simp [parseBuffer, ht]
  simp only [actCommentBegin, popBack_pushBack, orUb, e1, assertThen]
  rw [if_pos (by simp [ht])]
  have key : ∀ m r, t.stack = m :: r → Pos (afterComment m t.state) t.stack e := by
    intro m r hs
    have hp' := hp
    rcases hp with h | h | h | h | h | h | h
    · obtain ⟨h1, h2, h3⟩ := h
      rw [h2] at hs; cases hs
      simpa [afterComment] using hp'
    · obtain ⟨h1, ⟨r', h2⟩, h3⟩ := h
      rw [h2] at hs; cases hs
      simpa [afterComment] using hp'
    · obtain ⟨h1, ⟨r', h2⟩, h3⟩ := h
      rw [h2] at hs; cases hs
      simpa [afterComment] using hp'
    · obtain ⟨h1, ⟨r', h2⟩, h3⟩ := h
      rw [h2] at hs; cases hs
      simpa [afterComment] using hp'
    · have : afterComment m t.state = t.state := by simp [afterComment, h.1]
      rw [this]; exact hp'
    · have : afterComment m t.state = t.state := by simp [afterComment, h.1]
      rw [this]; exact hp'
    · have : afterComment m t.state = t.state := by simp [afterComment, h.1]
      rw [this]; exact hp'
  split
  · rename_i hs
    have hs' : t.stack = [] := hs
    rcases hp with h | h | h | h | h | h | h
    · rw [h.2.1] at hs'; cases hs'
    · obtain ⟨_, ⟨r', h2⟩, _⟩ := h; rw [h2] at hs'; cases hs'
    · obtain ⟨_, ⟨r', h2⟩, _⟩ := h; rw [h2] at hs'; cases hs'
    · obtain ⟨_, ⟨r', h2⟩, _⟩ := h; rw [h2] at hs'; cases hs'
    · obtain ⟨_, ⟨r', h2⟩, _⟩ := h; rw [hs'] at h2; simp at h2
    · obtain ⟨_, ⟨r', h2⟩, _⟩ := h; rw [h2] at hs'; cases hs'
    · have := h.2.2; rw [hs'] at this; exact this.elim
  · rename_i m r hs
    have hs' : t.stack = m :: r := hs
    refine ⟨?_, fun _ => bufOk_idle rfl rfl rfl⟩
    have := shape_comment (t := t) hn.1 _ (key m r hs')
    simpa using this

/-- A comment after a complete or buffered value. -/
theorem act_CB_settle (hn : NC t) (hs : Settle t e) (hv : t.state ≠ VA) (ha : t.state ≠ AR)
    (hd : t.stack = [.done] → t.state = OK) :
    R t e (actCommentBegin (pushBack t c)) := by
  simp only [actCommentBegin, popBack_pushBack, orUb]
  rcases settle hs with ⟨h1, h2⟩ | ⟨pe, h1, h2, h3⟩
  · rw [h1]; exact h2
  · rw [h1]
    simp only [assertThen]
    rw [if_pos (by exact hs.not_string)]
    split
    · rename_i hs'; have hs' : t.stack = [] := hs'
      rw [hs'] at h2; exact h2.elim
    · rename_i m r hs'; have hs' : t.stack = m :: r := hs'
      refine ⟨?_, fun _ => bufOk_idle rfl rfl rfl⟩
      have hb : afterComment m t.state = OK := by
        cases m with
        | array => simp [afterComment, hv, ha]
        | object => simp [afterComment, hv, ha]
        | key => exact absurd ⟨r, hs'⟩ h3
        | done =>
          cases r with
          | nil => simp [afterComment, hd hs']
          | cons x y => rw [hs'] at h2; simp [Pt] at h2
      have := shape_comment (t := t) hn.1 (afterComment m t.state) (e := e ++ pe)
        (by rw [hb]; exact .inr (.inr (.inr (.inr (.inr (.inr ⟨rfl, h3, h2⟩))))))
      simpa using this

theorem idle_shape {t : Tok} {e} (hn : NC t) (ht : t.type = .none) (hp : Pos t.state t.stack e) :
    Shape t e := .inl ⟨hn, ht, hp⟩

theorem act_m9 (hn : NC t) (ht : t.type = .none) (hk : keyTop t.stack) (hp : Pt t.stack .need e) :
    R t e (actEmptyObjEnd (pushBack t c)) := by
  obtain ⟨r, hk⟩ := hk
  have hk' : (pushBack t c).stack = .key :: r := hk
  unfold actEmptyObjEnd
  simp only [hk']
  rw [hk] at hp
  obtain ⟨e0, ps, hnk, h0, h1, rfl⟩ := hp
  refine ⟨idle_shape hn ht (.inr (.inr (.inr (.inr (.inr (.inr ⟨rfl, hnk, ?_⟩)))))), fun _ => bufOk_idle ht rfl rfl⟩
  have := Pt_container h0 hnk (.obj ps h1) (by simp)
  simpa using this

theorem act_m8 (hn : NC t) (hs : Settle t e) : R t e (actObjEnd (pushBack t c)) := by
  simp only [actObjEnd, popBack_pushBack, orUb]
  rcases settle hs with ⟨h1, h2⟩ | ⟨pe, h1, h2, h3⟩
  · rw [h1]; exact h2
  · rw [h1]
    simp only
    split
    · rename_i r hs'; have hs' : t.stack = .object :: r := hs'
      rw [hs'] at h2
      obtain ⟨e0, ps, hnk, h0, h1, h4⟩ := h2
      refine ⟨idle_shape hn rfl (.inr (.inr (.inr (.inr (.inr (.inr ⟨rfl, hnk, ?_⟩)))))), fun _ => bufOk_idle rfl rfl rfl⟩
      have := Pt_container h0 hnk (.obj ps h1) (by simp)
      rw [← List.append_assoc, h4]
      simpa using this
    · trivial

theorem act_m7 (hn : NC t) (hs : Settle t e ∨ (t.type = .none ∧ (∃ r, t.stack = .array :: r) ∧ Pt t.stack .need e)) :
    R t e (actArrEnd (pushBack t c)) := by
  simp only [actArrEnd, popBack_pushBack, orUb]
  have : (parseBuffer t = none ∧ ¬ BufOk t) ∨
    ∃ pe, parseBuffer t = some ({ t with buf := [] }, pe) ∧ Pt t.stack .have (e ++ pe) := by
    rcases hs with hs | ⟨h1, ⟨r, h2⟩, h3⟩
    · rcases settle hs with h | ⟨pe, h1, h2, h3⟩
      · exact .inl h
      · exact .inr ⟨pe, h1, h2⟩
    · exact .inr ⟨[], by simp [parseBuffer, h1], by rw [h2] at h3 ⊢; simpa [Pt] using h3⟩
  rcases this with ⟨h1, h2⟩ | ⟨pe, h1, h2⟩
  · rw [h1]; exact h2
  · rw [h1]
    simp only
    split
    · rename_i r hs'; have hs' : t.stack = .array :: r := hs'
      rw [hs'] at h2
      obtain ⟨e0, vs, hnk, h0, h1, h4⟩ := h2
      refine ⟨idle_shape hn rfl (.inr (.inr (.inr (.inr (.inr (.inr ⟨rfl, hnk, ?_⟩)))))), fun _ => bufOk_idle rfl rfl rfl⟩
      have := Pt_container h0 hnk (.arr vs h1) (by simp)
      rw [← List.append_assoc, h4]
      simpa using this
    · trivial

theorem act_m3 (hn : NC t) (hs : Settle t e) : R t e (actComma (pushBack t c)) := by
  simp only [actComma, popBack_pushBack, orUb]
  rcases settle hs with ⟨h1, h2⟩ | ⟨pe, h1, h2, h3⟩
  · rw [h1]; exact h2
  · rw [h1]
    simp only
    split
    · rename_i hs'; have hs' : t.stack = [] := hs'
      rw [hs'] at h2; exact h2.elim
    · rename_i r hs'; have hs' : t.stack = .object :: r := hs'
      rw [hs'] at h2
      simp only [assertThen]
      rw [if_pos (by exact hs.not_string)]
      exact ⟨idle_shape hn rfl (.inr (.inr (.inl ⟨rfl, ⟨r, rfl⟩, h2⟩))), fun _ => bufOk_idle rfl rfl rfl⟩
    · rename_i r hs'; have hs' : t.stack = .array :: r := hs'
      simp only [assertThen]
      rw [if_pos (by exact hs.not_string)]
      refine ⟨idle_shape hn rfl (.inr (.inr (.inr (.inr (.inl ⟨rfl, ⟨r, .inl hs'⟩, ?_⟩))))), fun _ => bufOk_idle rfl rfl rfl⟩
      show Pt t.stack _ _
      rw [hs'] at h2 ⊢; simpa [Pt] using h2
    · trivial

theorem act_m2 (hn : NC t) (ht : t.type = .none) (hp : Pt t.stack .have e) :
    R t e (actColon (pushBack t c)) := by
  simp only [actColon, popBack_pushBack, orUb]
  split
  · rename_i r hs
    simp only [assertThen, ht, if_true]
    rw [hs] at hp
    refine ⟨idle_shape hn rfl (.inr (.inr (.inr (.inr (.inl ⟨rfl, ⟨r, .inr rfl⟩, ?_⟩))))), fun hb => bufOk_idle rfl (hb.1 ht) rfl⟩
    simpa [Pt] using hp
  · trivial

theorem act_m4 (hn : NC t) (ht : t.type = .string) (hp : SPos t.stack e) :
    R t e (actStrEnd (pushBack t c)) := by
  simp only [actStrEnd, popBack_pushBack, orUb]
  obtain ⟨hv, hp⟩ := hp
  split
  · rename_i hs; rw [hs] at hp; exact hp.elim
  · rename_i r hs
    simp only [assertThen, ht, if_true]
    refine ⟨idle_shape hn rfl (.inr (.inr (.inr (.inl ⟨rfl, ⟨r, hs⟩, ?_⟩)))), fun hb => bufOk_idle rfl rfl rfl⟩
    show Pt t.stack _ _
    rw [hs] at hp ⊢
    obtain ⟨e0, ps, hnk, h0, h1, rfl⟩ := hp
    exact ⟨e0, ps, t.buf, hnk, h0, h1, by simp⟩
  · trivial
  · rename_i m r h1 h2 hs
    have e1 : parseBuffer t = some ({ t with buf := [] }, [.str t.buf]) := by simp [parseBuffer, ht]
    simp only [assertThen, ht, if_true, e1]
    have hv : valTop t.stack := by
      rcases hv with hv | ⟨r', hv⟩
      · exact hv
      · rw [hs] at hv; cases hv; exact (h1 rfl).elim
    have hvp : VPos t.stack e := ⟨hv, hp⟩
    exact ⟨idle_shape hn rfl (.inr (.inr (.inr (.inr (.inr (.inr ⟨rfl, hvp.not_key, Pt_value hvp (.scalar _ rfl)⟩)))))), fun hb => bufOk_idle rfl rfl rfl⟩

end

end Verif.JsonTok
