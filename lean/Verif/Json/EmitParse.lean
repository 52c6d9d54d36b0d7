import Verif.Json.EmitBody
import Verif.Json.RoundSpec
import Verif.Json.TokProps
import Verif.Build.Props
/-!
# The tokenizer on emitted text (lemmas for C01, C02, C04, C06)
-/

namespace Verif.JsonTok
open Verif.JsonDrv Verif.Build Verif.JsonEmit

/-- Accepted steps during which the mode stack never gets shorter than `n`. -/
inductive Steps (n : Nat) : Tok → Bytes → Tok → List JEv → Prop
  | nil (t) : Steps n t [] t []
  | cons {t c t1 e1 cs t2 e2} : charStep t c = .cont t1 e1 → n ≤ t1.stack.length →
      Steps n t1 cs t2 e2 → Steps n t (c :: cs) t2 (e1 ++ e2)

theorem Steps.append {n t a t1 e1 b t2 e2} (h : Steps n t a t1 e1) (h' : Steps n t1 b t2 e2) :
    Steps n t (a ++ b) t2 (e1 ++ e2) := by
  induction h with
  | nil => exact h'
  | cons hc hn _ ih => rw [List.cons_append, List.append_assoc]; exact .cons hc hn (ih h')

theorem Steps.append' {n t a t1 b t2 e2} (h : Steps n t a t1 []) (h' : Steps n t1 b t2 e2) :
    Steps n t (a ++ b) t2 e2 := by simpa using h.append h'

theorem Steps.one {n t c t1 e1} (h : charStep t c = .cont t1 e1) (hn : n ≤ t1.stack.length) :
    Steps n t [c] t1 e1 := by simpa using Steps.cons h hn (.nil t1)

theorem Steps.cons' {n t c t1 cs t2 e2} (h : charStep t c = .cont t1 []) (hn : n ≤ t1.stack.length)
    (h' : Steps n t1 cs t2 e2) : Steps n t (c :: cs) t2 e2 := by simpa using Steps.cons h hn h'

theorem Steps.mono {m n t a t' e} (h : Steps n t a t' e) (hm : m ≤ n) : Steps m t a t' e := by
  induction h with
  | nil => exact .nil _
  | cons hc hn _ ih => exact .cons hc (by omega) ih

/-- Idle tokenizer in state `s`. -/
abbrev T (s : Int) (stk : List Mode) : Tok := ⟨s, 0, .none, false, false, 0, stk, []⟩
/-- Tokenizer in the middle of a scalar. -/
abbrev P (s : Int) (ty : JT) (stk : List Mode) (buf : Bytes) : Tok := ⟨s, 0, ty, false, false, 0, stk, buf⟩

/-! ## Idle steps -/

theorem idle_ws {n : Nat} (s : Int) (stk : List Mode) (hs : s ∈ [GO, OK, OB, KE, CO, VA, AR]) (hn : n ≤ stk.length)
    {ws : Bytes} (h : WS ws) : Steps n (T s stk) ws (T s stk) [] := by
  induction ws with
  | nil => exact .nil _
  | cons w ws ih =>
    have hw := h w (by simp)
    refine .cons' ?_ hn (ih fun x hx => h x (by simp [hx]))
    simp only [List.mem_cons, List.not_mem_nil, or_false] at hs
    rcases hw with rfl | rfl <;> rcases hs with rfl | rfl | rfl | rfl | rfl | rfl | rfl <;> rfl

/-! ## Strings -/

/-- Bytes copied unchanged inside a string. -/
def plainChar (b : UInt8) : Bool := b ≥ 32 && b ≠ 0x22 && b ≠ 0x5c

theorem plain_rows : ∀ b : Fin 256, plainChar (UInt8.ofNat b.val) = true →
    ∃ k : Fin 32, classOf (UInt8.ofNat b.val) = some (k.val : Int) ∧ entry 7 k = ST := by
  decide +kernel

theorem str_plain (stk : List Mode) (buf : Bytes) (b : UInt8) (h : plainChar b = true) :
    charStep (P ST .string stk buf) b = .cont (P ST .string stk (buf ++ [b])) [] := by
  have hcc : UInt8.ofNat b.toNat = b := by simp
  have := plain_rows ⟨b.toNat, b.toNat_lt⟩
  simp only [hcc] at this
  obtain ⟨k, h1, h2⟩ := this h
  rw [charStep_eq h1 k.isLt (addChar_typed b k ⟨rfl, rfl⟩ (by simp)) (s := 7) rfl (by decide), h2]
  rfl

theorem str_back (stk : List Mode) (buf : Bytes) :
    charStep (P ST .string stk buf) 0x5c =
      .cont ⟨ES, 0, .string, true, false, 0, stk, buf ++ [0x5c]⟩ [] := rfl

/-- Two-character escapes: the letter and the byte it stands for. -/
def escPairs : List (UInt8 × UInt8) :=
  [(0x62, 8), (0x66, 12), (0x6e, 10), (0x72, 13), (0x74, 9), (0x22, 0x22), (0x5c, 0x5c)]

theorem str_esc (stk : List Mode) (buf : Bytes) (p : UInt8 × UInt8) (h : p ∈ escPairs) :
    charStep ⟨ES, 0, .string, true, false, 0, stk, buf ++ [0x5c]⟩ p.1 =
      .cont (P ST .string stk (buf ++ [p.2])) [] := by
  have hp : popBack ⟨ES, 0, .string, false, false, 0, stk, buf ++ [0x5c]⟩ =
      some ⟨ES, 0, .string, false, false, 0, stk, buf⟩ := by simp [popBack]
  simp only [escPairs, List.mem_cons, List.not_mem_nil, or_false] at h
  rcases h with rfl | rfl | rfl | rfl | rfl | rfl | rfl <;>
    (unfold charStep addChar addEscaped; simp only [if_true]; rw [hp]; rfl)

theorem str_u (stk : List Mode) (buf : Bytes) :
    charStep ⟨ES, 0, .string, true, false, 0, stk, buf ++ [0x5c]⟩ 0x75 =
      .cont (P U1 .string stk (buf ++ [0x5c] ++ [0x75])) [] := by
  have hp : popBack ⟨ES, 0, .string, false, false, 0, stk, buf ++ [0x5c]⟩ =
      some ⟨ES, 0, .string, false, false, 0, stk, buf⟩ := by simp [popBack]
  unfold charStep addChar addEscaped; simp only [if_true]; rw [hp]; rfl

/-- Lower-case hexadecimal digits. -/
def lowHex (b : UInt8) : Bool := (48 ≤ b && b ≤ 57) || (97 ≤ b && b ≤ 102)

theorem lowHex_row (b : UInt8) (h : lowHex b = true) : ∃ k : Fin 32, classOf b = some (k.val : Int) ∧
    entry 9 k = U2 ∧ entry 10 k = U3 ∧ entry 11 k = U4 ∧ entry 12 k = UC := by
  have key : ∀ b : Fin 256, lowHex (UInt8.ofNat b.val) = true →
      ∃ k : Fin 32, classOf (UInt8.ofNat b.val) = some (k.val : Int) ∧ entry 9 k = U2 ∧ entry 10 k = U3 ∧
      entry 11 k = U4 ∧ entry 12 k = UC := by decide +kernel
  have := key ⟨b.toNat, b.toNat_lt⟩
  simp only [show UInt8.ofNat b.toNat = b by simp] at this
  exact this h

theorem str_unicode {n : Nat} (stk : List Mode) (buf : Bytes) (h1 h2 : UInt8) (hn : n ≤ stk.length)
    (l1 : lowHex h1 = true) (l2 : lowHex h2 = true) (v1 : hexVal h1 < 8) (v2 : hexVal h2 < 16) :
    Steps n (P U1 .string stk (buf ++ [0x5c] ++ [0x75])) [0x30, 0x30, h1, h2]
      (P ST .string stk (buf ++ [UInt8.ofNat (hexVal h1 * 16 + hexVal h2)])) [] := by
  obtain ⟨k1, c1, _, _, a1, _⟩ := lowHex_row h1 l1
  obtain ⟨k2, c2, _, _, _, a2⟩ := lowHex_row h2 l2
  refine .cons' (t1 := P U2 .string stk (buf ++ [0x5c] ++ [0x75] ++ [0x30])) rfl hn ?_
  refine .cons' (t1 := P U3 .string stk (buf ++ [0x5c] ++ [0x75] ++ [0x30] ++ [0x30])) rfl hn ?_
  refine .cons' (t1 := P U4 .string stk (buf ++ [0x5c] ++ [0x75] ++ [0x30] ++ [0x30] ++ [h1])) ?_ hn ?_
  · rw [charStep_eq c1 k1.isLt (addChar_typed h1 k1 ⟨rfl, rfl⟩ (by simp)) (s := 11) rfl (by decide), a1]; rfl
  refine .one ?_ hn
  rw [charStep_eq c2 k2.isLt (addChar_typed h2 k2 ⟨rfl, rfl⟩ (by simp)) (s := 12) rfl (by decide), a2,
    if_neg (by decide)]
  have e : (pushBack (P U4 .string stk (buf ++ [0x5c] ++ [0x75] ++ [0x30] ++ [0x30] ++ [h1])) h2) =
      P U4 .string stk (buf ++ [0x5c, 0x75, 0x30, 0x30, h1, h2]) := by simp [pushBack]
  rw [e]
  show actUnicode _ = _
  have hd : decodeUnicode (P U4 .string stk (buf ++ [0x5c, 0x75, 0x30, 0x30, h1, h2])) =
      .good (P U4 .string stk (buf ++ [UInt8.ofNat (hexVal h1 * 16 + hexVal h2)])) := by
    have hl : (buf ++ [0x5c, 0x75, 0x30, 0x30, h1, h2]).length = buf.length + 6 := by simp
    have hdrop : (buf ++ [0x5c, 0x75, 0x30, 0x30, h1, h2]).drop
        ((buf ++ [0x5c, 0x75, 0x30, 0x30, h1, h2]).length - 4) = [0x30, 0x30, h1, h2] := by
      rw [hl, show buf.length + 6 - 4 = buf.length + 2 by omega, List.drop_append]
      simp
    have htake : (buf ++ [0x5c, 0x75, 0x30, 0x30, h1, h2]).take
        ((buf ++ [0x5c, 0x75, 0x30, 0x30, h1, h2]).length - 6) = buf := by
      rw [hl]; simp
    unfold decodeUnicode
    rw [if_neg (by rw [hl]; omega)]
    simp only [hdrop, htake]
    have hz : hexVal 0x30 = 0 := rfl
    rw [if_neg (by simp [hz]; omega), if_neg (by simp), if_pos (by simp [hz]; omega)]
    simp [hz, utf8]
  unfold actUnicode
  rw [hd]
  rfl

theorem esc_cases : ∀ b : Fin 256,
    (plainChar (UInt8.ofNat b.val) = true ∧ escChar (UInt8.ofNat b.val) = [UInt8.ofNat b.val]) ∨
    (∃ p ∈ escPairs, p.2 = UInt8.ofNat b.val ∧ escChar (UInt8.ofNat b.val) = [0x5c, p.1]) ∨
    (∃ h1 h2 : Fin 256, escChar (UInt8.ofNat b.val) =
        [0x5c, 0x75, 0x30, 0x30, UInt8.ofNat h1.val, UInt8.ofNat h2.val] ∧
      lowHex (UInt8.ofNat h1.val) = true ∧ lowHex (UInt8.ofNat h2.val) = true ∧
      hexVal (UInt8.ofNat h1.val) < 8 ∧ hexVal (UInt8.ofNat h2.val) < 16 ∧
      UInt8.ofNat (hexVal (UInt8.ofNat h1.val) * 16 + hexVal (UInt8.ofNat h2.val)) = UInt8.ofNat b.val) := by
  intro b
  have key : ∀ b : Fin 256,
    (plainChar (UInt8.ofNat b.val) = true ∧ escChar (UInt8.ofNat b.val) = [UInt8.ofNat b.val]) ∨
    (∃ p ∈ escPairs, p.2 = UInt8.ofNat b.val ∧ escChar (UInt8.ofNat b.val) = [0x5c, p.1]) ∨
    (escChar (UInt8.ofNat b.val) =
        [0x5c, 0x75, 0x30, 0x30, hexDigit (b.val / 16), hexDigit (b.val % 16)] ∧
      lowHex (hexDigit (b.val / 16)) = true ∧ lowHex (hexDigit (b.val % 16)) = true ∧
      hexVal (hexDigit (b.val / 16)) < 8 ∧ hexVal (hexDigit (b.val % 16)) < 16 ∧
      UInt8.ofNat (hexVal (hexDigit (b.val / 16)) * 16 + hexVal (hexDigit (b.val % 16))) = UInt8.ofNat b.val) := by
    decide +kernel
  rcases key b with h | h | h
  · exact .inl h
  · exact .inr (.inl h)
  · refine .inr (.inr ⟨⟨(hexDigit (b.val / 16)).toNat, UInt8.toNat_lt _⟩,
      ⟨(hexDigit (b.val % 16)).toNat, UInt8.toNat_lt _⟩, ?_⟩)
    simpa using h

/-- C04 (tokenizer side): inside a string, the escape of a byte is read back as that byte. -/
theorem str_char {n : Nat} (stk : List Mode) (buf : Bytes) (b : UInt8) (hn : n ≤ stk.length) :
    Steps n (P ST .string stk buf) (escChar b) (P ST .string stk (buf ++ [b])) [] := by
  have := esc_cases ⟨b.toNat, b.toNat_lt⟩
  simp only [show UInt8.ofNat b.toNat = b by simp] at this
  rcases this with ⟨h1, h2⟩ | ⟨p, h1, h2, h3⟩ | ⟨h1, h2, h3, l1, l2, v1, v2, e⟩
  · rw [h2]; exact .one (str_plain stk buf b h1) hn
  · rw [h3, ← h2]
    exact .cons' (str_back stk buf) hn (.one (str_esc stk buf p h1) hn)
  · rw [h3, ← e]
    exact .cons' (str_back stk buf) hn (.cons' (str_u stk buf) hn (str_unicode stk buf _ _ hn l1 l2 v1 v2))

theorem str_chars {n : Nat} (stk : List Mode) (buf s : Bytes) (hn : n ≤ stk.length) :
    Steps n (P ST .string stk buf) (s.flatMap escChar) (P ST .string stk (buf ++ s)) [] := by
  induction s generalizing buf with
  | nil => simpa using Steps.nil _
  | cons b s ih =>
    rw [List.flatMap_cons]
    have := (str_char stk buf b hn).append' (ih (buf ++ [b]))
    simpa using this

theorem str_plains {n : Nat} (stk : List Mode) (buf s : Bytes) (hn : n ≤ stk.length)
    (h : ∀ b ∈ s, plainChar b = true) :
    Steps n (P ST .string stk buf) s (P ST .string stk (buf ++ s)) [] := by
  induction s generalizing buf with
  | nil => simpa using Steps.nil _
  | cons b s ih =>
    refine .cons' (str_plain stk buf b (h b (by simp))) hn ?_
    have := ih (buf ++ [b]) (fun x hx => h x (by simp [hx]))
    simpa using this

theorem str_open (s : Int) (stk : List Mode) (hs : s ∈ [OB, KE, VA, AR]) :
    charStep (T s stk) 0x22 = .cont (P ST .string stk []) [] := by
  simp only [List.mem_cons, List.not_mem_nil, or_false] at hs
  rcases hs with rfl | rfl | rfl | rfl <;> rfl

theorem popBack_snoc (s b ty esc com h stk buf) (c : UInt8) :
    popBack ⟨s, b, ty, esc, com, h, stk, buf ++ [c]⟩ = some ⟨s, b, ty, esc, com, h, stk, buf⟩ := by
  simp [popBack]

theorem str_close_key (stk : List Mode) (buf : Bytes) :
    charStep (P ST .string (.key :: stk) buf) 0x22 = .cont (T CO (.key :: stk)) [.key buf] := by
  have e : charStep (P ST .string (.key :: stk) buf) 0x22 =
      actStrEnd (P ST .string (.key :: stk) (buf ++ [0x22])) := rfl
  rw [e]; unfold actStrEnd; rw [popBack_snoc]; rfl

theorem str_close_val (m : Mode) (stk : List Mode) (buf : Bytes) (hm : m = .array ∨ m = .object) :
    charStep (P ST .string (m :: stk) buf) 0x22 = .cont (T OK (m :: stk)) [.str buf] := by
  have e : charStep (P ST .string (m :: stk) buf) 0x22 =
      actStrEnd (P ST .string (m :: stk) (buf ++ [0x22])) := rfl
  rw [e]; unfold actStrEnd; rw [popBack_snoc]
  rcases hm with rfl | rfl <;> rfl

/-! ## Ends of values -/

/-- The events the value builder receives for a list of callbacks. -/
def cbs (fo : FloatOps) : List JEv → Out (List PEv)
  | [] => .ok []
  | e :: es => do
    let p ← callbackEvent fo e
    let ps ← cbs fo es
    return p :: ps

theorem cbs_append {fo : FloatOps} {a b : List JEv} {p q : List PEv} (h : cbs fo a = .ok p)
    (h' : cbs fo b = .ok q) : cbs fo (a ++ b) = .ok (p ++ q) := by
  induction a generalizing p with
  | nil => simp [cbs] at h; subst h; simpa using h'
  | cons e es ih =>
    simp only [cbs, Out.bind_eq_ok] at h
    obtain ⟨x, h1, y, h2, h3⟩ := h
    simp at h3
    simp [cbs, h1, ih h2, ← h3]

theorem callbacks_cbs {fo : FloatOps} {evs : List JEv} {pes : List PEv} (h : cbs fo evs = .ok pes)
    (s : BState) : callbacks fo s evs = events fo.fltText s pes := by
  induction evs generalizing pes s with
  | nil => simp [cbs] at h; subst h; rfl
  | cons e es ih =>
    simp only [cbs, Out.bind_eq_ok] at h
    obtain ⟨x, h1, y, h2, h3⟩ := h
    simp at h3; subst h3
    simp only [callbacks, events, h1, Out.bind_ok]
    cases event fo.fltText s x with
    | ok s' => exact ih h2 s'
    | throw e => rfl
    | ub => rfl

/-- The tokenizer has read a value inside the container on top of `stk`; after any blanks, the
closing bracket and the comma act as they should and deliver the pending events `pe`. -/
structure EndsV (fo : FloatOps) (stk : List Mode) (t : Tok) (pe : List PEv) : Prop where
  arr : ∀ s, stk = .array :: s → ∀ ws, WS ws → ∃ t' evs, cbs fo evs = .ok pe ∧
    Steps stk.length t ws t' [] ∧ charStep t' 0x5d = .cont (T OK s) (evs ++ [.arrEnd]) ∧
    charStep t' 0x2c = .cont (T VA stk) evs
  obj : ∀ s, stk = .object :: s → ∀ ws, WS ws → ∃ t' evs, cbs fo evs = .ok pe ∧
    Steps stk.length t ws t' [] ∧ charStep t' 0x7d = .cont (T OK s) (evs ++ [.objEnd]) ∧
    charStep t' 0x2c = .cont (T KE (.key :: s)) evs

theorem ends_idle (fo : FloatOps) (stk : List Mode) : EndsV fo stk (T OK stk) [] := by
  constructor
  · rintro s rfl ws hw
    exact ⟨T OK (.array :: s), [], rfl, idle_ws OK _ (by simp) (Nat.le_refl _) hw, rfl, rfl⟩
  · rintro s rfl ws hw
    exact ⟨T OK (.object :: s), [], rfl, idle_ws OK _ (by simp) (Nat.le_refl _) hw, rfl, rfl⟩

/-- States in which a number or literal may end. -/
def endStates : List Int := [OK, ZE, IT, FR, E3, FX]

theorem pend_ws {n : Nat} (s : Int) (ty : JT) (stk : List Mode) (buf : Bytes) (hs : s ∈ endStates)
    (hty : ty ≠ .none) (hn : n ≤ stk.length) {ws : Bytes} (h : WS ws) :
    ∃ s' ∈ endStates, Steps n (P s ty stk buf) ws (P s' ty stk (buf ++ ws)) [] := by
  induction ws generalizing s buf with
  | nil => exact ⟨s, hs, by simpa using Steps.nil _⟩
  | cons w ws ih =>
    obtain ⟨s', h1, h2⟩ := ih OK (buf ++ [w]) (by simp [endStates]) (fun x hx => h x (by simp [hx]))
    refine ⟨s', h1, ?_⟩
    have hw := h w (by simp)
    have : charStep (P s ty stk buf) w = .cont (P OK ty stk (buf ++ [w])) [] := by
      simp only [endStates, List.mem_cons, List.not_mem_nil, or_false] at hs
      cases ty <;> first | exact absurd rfl hty | skip
      all_goals rcases hw with rfl | rfl <;> rcases hs with rfl | rfl | rfl | rfl | rfl | rfl <;> rfl
    exact .cons' this hn (by simpa using h2)

theorem pend_act (s : Int) (ty : JT) (stk : List Mode) (buf : Bytes) (hs : s ∈ endStates) :
    charStep (P s ty stk buf) 0x5d = actArrEnd (P s ty stk (buf ++ [0x5d])) ∧
    charStep (P s ty stk buf) 0x7d = actObjEnd (P s ty stk (buf ++ [0x7d])) ∧
    charStep (P s ty stk buf) 0x2c = actComma (P s ty stk (buf ++ [0x2c])) := by
  simp only [endStates, List.mem_cons, List.not_mem_nil, or_false] at hs
  rcases hs with rfl | rfl | rfl | rfl | rfl | rfl <;> cases ty <;> exact ⟨rfl, rfl, rfl⟩

/-- A pending scalar whose buffered text, with any blanks after it, is delivered as `pe`. -/
theorem ends_pending (fo : FloatOps) (s : Int) (ty : JT) (stk : List Mode) (buf : Bytes) (pe : PEv)
    (hs : s ∈ endStates) (hty : ty ≠ .none) (hstr : ty ≠ .string)
    (h : ∀ (s : Int) (stk : List Mode) (ws : Bytes), WS ws → ∃ e, parseBuffer (P s ty stk (buf ++ ws)) =
      some (P s ty stk [], [e]) ∧ callbackEvent fo e = .ok pe) :
    EndsV fo stk (P s ty stk buf) [pe] := by
  constructor
  · rintro st rfl ws hw
    obtain ⟨s', h1, h2⟩ := pend_ws s ty (.array :: st) buf hs hty (Nat.le_refl _) hw
    obtain ⟨e, h3, h4⟩ := h s' (.array :: st) ws hw
    obtain ⟨a1, a2, a3⟩ := pend_act s' ty (.array :: st) (buf ++ ws) h1
    refine ⟨_, [e], by simp [cbs, h4], h2, ?_, ?_⟩
    · rw [a1]; unfold actArrEnd; rw [popBack_snoc]; simp only [orUb]; rw [h3]
    · rw [a3]; unfold actComma; rw [popBack_snoc]; simp only [orUb]; rw [h3]; simp [assertThen, hstr]
  · rintro st rfl ws hw
    obtain ⟨s', h1, h2⟩ := pend_ws s ty (.object :: st) buf hs hty (Nat.le_refl _) hw
    obtain ⟨e, h3, h4⟩ := h s' (.object :: st) ws hw
    obtain ⟨a1, a2, a3⟩ := pend_act s' ty (.object :: st) (buf ++ ws) h1
    refine ⟨_, [e], by simp [cbs, h4], h2, ?_, ?_⟩
    · rw [a2]; unfold actObjEnd; rw [popBack_snoc]; simp only [orUb]; rw [h3]
    · rw [a3]; unfold actComma; rw [popBack_snoc]; simp only [orUb]; rw [h3]; simp [assertThen, hstr]

end Verif.JsonTok
