import Verif.Json.DriverInv
import Verif.Json.Grow
import Verif.Base64.Props
/-!
# C05, C07, C08, C09: chunking, table safety, literals and bracketing of the JSON parser
-/

namespace Verif.JsonTok
open Verif.JsonDrv Verif.Build

/-- ASCII text of a Lean string, for readable examples. -/
abbrev asc (s : String) : Bytes := s.toList.map fun c => UInt8.ofNat c.toNat

theorem init_shape : Shape Tok.init [] := .inl ⟨⟨rfl, rfl⟩, rfl, .inl ⟨rfl, rfl, rfl⟩⟩
theorem init_bufOk : BufOk Tok.init := bufOk_idle rfl rfl rfl

theorem runTok_inv {t : Tok} {e : List JEv} (hs : Shape t e) (hb : BufOk t) (text : Bytes) :
    match runTok t e text with
    | .ub => False
    | .rej _ _ => True
    | .cont t' e' => Shape t' e' ∧ BufOk t' := by
  induction text generalizing t e with
  | nil => exact ⟨hs, hb⟩
  | cons c cs ih =>
    have hR := step_R c hs
    unfold runTok
    cases hc : charStep t c with
    | ub => rw [hc] at hR; exact hR hb
    | rej t' e' => trivial
    | cont t' e' => rw [hc] at hR; exact ih hR.1 (hR.2 hb)

/-- C07.  Feeding any text character by character, stopping at the first rejected character
(the documented use), the tokenizer never leaves its tables, stack or buffer and no internal
assertion fails. -/
theorem tokenizer_safe (text : Bytes) : runTok Tok.init [] text ≠ .ub := by
  intro h
  have := runTok_inv init_shape init_bufOk text
  rw [h] at this
  exact this

example : runTok Tok.init [] (asc "{\"a\\ud83d\\ude00\": [1, -2.5e3, tru") ≠ .ub := tokenizer_safe _

/-- C09 (tokenizer).  When the tokenizer reports a complete document, the callbacks made are
those of exactly one properly nested list or map. -/
theorem tokenizer_bracketed (text : Bytes) (t : Tok) (evs : List JEv)
    (h : runTok Tok.init [] text = .cont t evs) (hd : isDone t = true) : IsDoc evs := by
  have := runTok_inv init_shape init_bufOk text
  rw [h] at this
  exact isDone_doc this.1 hd

example : IsDoc [.arrBegin, .uint 1, .objBegin, .key [97], .arrBegin, .arrEnd, .objEnd, .arrEnd] :=
  tokenizer_bracketed (asc "[1, {\"a\":[]} ] ") ⟨OK, 0, .none, false, false, 0, [.done], []⟩ _
    (by decide +kernel) (by decide +kernel)

/-- The bracketing specification rejects unbalanced and misplaced events. -/
example : ¬ IsDoc [.arrBegin, .uint 1] := by
  rintro ⟨h, _⟩
  have := sumDelta_value h
  revert this; decide

/-! ## C08 -/

/-- C08, finding: a literal cut short by a comment is accepted; `[tru/**/]` is `[true]`. -/
theorem literals_complete_false (fo : FloatOps) :
    deserialize fo [asc "[tru/**/]"] = .ok (.list [.bool true], []) ∧
    deserialize fo [asc "[nul/**/]"] = .ok (.list [.null], []) ∧
    deserialize fo [asc "{\"a\":fals/**/}"] = .ok (.map [([97], .bool false)], []) := by
  exact ⟨rfl, rfl, rfl⟩

/-- The three literals. -/
def literals : List Bytes := [asc "true", asc "false", asc "null"]

/-- Idle and expecting a value (after `[`, `,` or `:`). -/
def ExpectsValue (t : Tok) : Prop :=
  t.escaped = false ∧ t.comment = false ∧ t.type = .none ∧ (t.state = VA ∨ t.state = AR)

theorem runTok_append (t : Tok) (e : List JEv) (a b : Bytes) :
    runTok t e (a ++ b) = match runTok t e a with
      | .cont t' e' => runTok t' e' b
      | r => r := by
  induction a generalizing t e with
  | nil => rfl
  | cons c cs ih =>
    simp only [List.cons_append, runTok]
    cases charStep t c with
    | ub => rfl
    | rej _ _ => rfl
    | cont t' e' => exact ih _ _

theorem lit_rows : ∀ c : Fin 256,
    (classOf (UInt8.ofNat c.val) = some (-1) ∨ ∃ k : Fin 32, classOf (UInt8.ofNat c.val) = some (k.val : Int) ∧
      (c.val ≠ 114 → entry 20 k = XX) ∧ (c.val ≠ 117 → entry 21 k = XX) ∧
      (c.val ≠ 101 → c.val ≠ 47 → entry 22 k = XX) ∧
      (c.val ≠ 97 → entry 23 k = XX) ∧ (c.val ≠ 108 → entry 24 k = XX) ∧ (c.val ≠ 115 → entry 25 k = XX) ∧
      (c.val ≠ 101 → c.val ≠ 47 → entry 26 k = XX) ∧
      (c.val ≠ 117 → entry 27 k = XX) ∧ (c.val ≠ 108 → entry 28 k = XX) ∧
      (c.val ≠ 108 → c.val ≠ 47 → entry 29 k = XX)) := by
  decide +kernel

/-- Inside a literal every character but the next letter (and, before the last letter, `/`)
is rejected. -/
theorem lit_rej {t : Tok} {c : UInt8} (hn : NC t) (ht : t.type ≠ .none) (s : Nat)
    (hs : t.state = (s : Int)) (hc : (s = 20 ∧ c ≠ 114) ∨ (s = 21 ∧ c ≠ 117) ∨ (s = 22 ∧ c ≠ 101 ∧ c ≠ 47) ∨
      (s = 23 ∧ c ≠ 97) ∨ (s = 24 ∧ c ≠ 108) ∨ (s = 25 ∧ c ≠ 115) ∨ (s = 26 ∧ c ≠ 101 ∧ c ≠ 47) ∨
      (s = 27 ∧ c ≠ 117) ∨ (s = 28 ∧ c ≠ 108) ∨ (s = 29 ∧ c ≠ 108 ∧ c ≠ 47)) :
    ∃ t', charStep t c = .rej t' [] := by
  have hcc : UInt8.ofNat c.toNat = c := by simp
  have := lit_rows ⟨c.toNat, c.toNat_lt⟩
  simp only [hcc] at this
  rcases this with h | ⟨k, hk, h⟩
  · exact ⟨t, by simp [charStep, h]⟩
  · have hne : ∀ n : UInt8, c ≠ n → c.toNat ≠ n.toNat := fun n h e => h (UInt8.toNat_inj.1 e)
    have he : entry s k = XX := by
      obtain ⟨a1, a2, a3, a4, a5, a6, a7, a8, a9, a10⟩ := h
      rcases hc with ⟨rfl, h⟩ | ⟨rfl, h⟩ | ⟨rfl, h, h'⟩ | ⟨rfl, h⟩ | ⟨rfl, h⟩ | ⟨rfl, h⟩ | ⟨rfl, h, h'⟩ |
        ⟨rfl, h⟩ | ⟨rfl, h⟩ | ⟨rfl, h, h'⟩
      · exact a1 (hne 114 h)
      · exact a2 (hne 117 h)
      · exact a3 (hne 101 h) (hne 47 h')
      · exact a4 (hne 97 h)
      · exact a5 (hne 108 h)
      · exact a6 (hne 115 h)
      · exact a7 (hne 101 h) (hne 47 h')
      · exact a8 (hne 117 h)
      · exact a9 (hne 108 h)
      · exact a10 (hne 108 h) (hne 47 h')
    have hlt : s < 36 := by omega
    rw [charStep_eq hk k.isLt (addChar_typed c k hn ht) hs hlt, he, if_neg (by decide), action_rej]
    exact ⟨_, rfl⟩

theorem lit_first {t : Tok} (h : ExpectsValue t) :
    (charStep t 116 = .cont { pushBack t 116 with type := .tru, state := T1 } []) ∧
    (charStep t 102 = .cont { pushBack t 102 with type := .fals, state := F1 } []) ∧
    (charStep t 110 = .cont { pushBack t 110 with type := .null, state := N1 } []) := by
  obtain ⟨h1, h2, h3, h4⟩ := h
  obtain ⟨st, bcs, ty, esc, com, hs, stk, buf⟩ := t
  simp only at h1 h2 h3 h4
  subst h1 h2 h3
  rcases h4 with rfl | rfl <;> exact ⟨rfl, rfl, rfl⟩

theorem lit_next (bcs : Int) (hs : Nat) (stk : List Mode) (b : Bytes) :
    charStep ⟨T1, bcs, .tru, false, false, hs, stk, b⟩ 114 = .cont ⟨T2, bcs, .tru, false, false, hs, stk, b ++ [114]⟩ [] ∧
    charStep ⟨T2, bcs, .tru, false, false, hs, stk, b⟩ 117 = .cont ⟨T3, bcs, .tru, false, false, hs, stk, b ++ [117]⟩ [] ∧
    charStep ⟨F1, bcs, .fals, false, false, hs, stk, b⟩ 97 = .cont ⟨F2, bcs, .fals, false, false, hs, stk, b ++ [97]⟩ [] ∧
    charStep ⟨F2, bcs, .fals, false, false, hs, stk, b⟩ 108 = .cont ⟨F3, bcs, .fals, false, false, hs, stk, b ++ [108]⟩ [] ∧
    charStep ⟨F3, bcs, .fals, false, false, hs, stk, b⟩ 115 = .cont ⟨F4, bcs, .fals, false, false, hs, stk, b ++ [115]⟩ [] ∧
    charStep ⟨N1, bcs, .null, false, false, hs, stk, b⟩ 117 = .cont ⟨N2, bcs, .null, false, false, hs, stk, b ++ [117]⟩ [] ∧
    charStep ⟨N2, bcs, .null, false, false, hs, stk, b⟩ 108 = .cont ⟨N3, bcs, .null, false, false, hs, stk, b ++ [108]⟩ [] :=
  ⟨rfl, rfl, rfl, rfl, rfl, rfl, rfl⟩

/-- C08, the part that holds.  Where a value is expected, a proper non-empty prefix of `true`,
`false` or `null` is rejected at the next character, whatever it is, unless that character
continues the literal or (the one gap) starts a comment in place of the last letter.
Missing: the comment case, where the code accepts the cut literal (see the finding above). -/
theorem literals_complete_partial (pre : Bytes) (t : Tok) (evs : List JEv)
    (hpre : runTok Tok.init [] pre = .cont t evs) (hv : ExpectsValue t)
    (lit p q : Bytes) (c : UInt8) (rest : Bytes) (hlit : lit ∈ literals) (hpq : lit = p ++ q)
    (hp : p ≠ []) (hq : q ≠ []) (hc : q.head? ≠ some c) (hslash : ¬ (c = 47 ∧ q.length = 1)) :
    ∃ t', runTok Tok.init [] (pre ++ p ++ c :: rest) = .rej t' evs := by
  rw [List.append_assoc, runTok_append, hpre]
  simp only
  obtain ⟨f1, f2, f3⟩ := lit_first hv
  obtain ⟨h1, h2, h3, h4⟩ := hv
  -- it is enough to reach a literal state from which `c` is rejected
  have fin : ∀ (t1 : Tok) (s : Nat), NC t1 → t1.type ≠ .none → t1.state = (s : Int) →
      ((s = 20 ∧ c ≠ 114) ∨ (s = 21 ∧ c ≠ 117) ∨ (s = 22 ∧ c ≠ 101 ∧ c ≠ 47) ∨
      (s = 23 ∧ c ≠ 97) ∨ (s = 24 ∧ c ≠ 108) ∨ (s = 25 ∧ c ≠ 115) ∨ (s = 26 ∧ c ≠ 101 ∧ c ≠ 47) ∨
      (s = 27 ∧ c ≠ 117) ∨ (s = 28 ∧ c ≠ 108) ∨ (s = 29 ∧ c ≠ 108 ∧ c ≠ 47)) →
      runTok t evs p = .cont t1 evs → ∃ t', runTok t evs (p ++ c :: rest) = .rej t' evs := by
    intro t1 s a1 a2 a3 a4 a5
    rw [runTok_append, a5]
    obtain ⟨t', e⟩ := lit_rej a1 a2 s a3 a4
    exact ⟨t', by simp [runTok, e]⟩
  obtain ⟨st, bcs, ty, esc, com, hs, stk, buf⟩ := t
  simp only at h1 h2 h3 h4
  subst h1 h2 h3
  simp only [pushBack] at f1 f2 f3
  have g1 := fun b => (lit_next bcs hs stk b).1
  have g2 := fun b => (lit_next bcs hs stk b).2.1
  have g3 := fun b => (lit_next bcs hs stk b).2.2.1
  have g4 := fun b => (lit_next bcs hs stk b).2.2.2.1
  have g5 := fun b => (lit_next bcs hs stk b).2.2.2.2.1
  have g6 := fun b => (lit_next bcs hs stk b).2.2.2.2.2.1
  have g7 := fun b => (lit_next bcs hs stk b).2.2.2.2.2.2
  simp only [literals, List.mem_cons, List.not_mem_nil, or_false] at hlit
  rcases hlit with rfl | rfl | rfl
  · have e : asc "true" = [116, 114, 117, 101] := rfl
    rw [e] at hpq
    match p, hp, hpq with
    | [], hp, _ => exact absurd rfl hp
    | [x], _, hpq =>
      simp at hpq; obtain ⟨rfl, rfl⟩ := hpq
      exact fin ⟨T1, bcs, .tru, false, false, hs, stk, buf ++ [116]⟩ 20 ⟨rfl, rfl⟩ nofun rfl (.inl ⟨rfl, fun h => hc (by simp [h])⟩) (by simp only [runTok, f1, List.append_nil])
    | [x, y], _, hpq =>
      simp at hpq; obtain ⟨rfl, rfl, rfl⟩ := hpq
      refine fin ⟨T2, bcs, .tru, false, false, hs, stk, buf ++ [116] ++ [114]⟩ 21 ⟨rfl, rfl⟩ nofun rfl (.inr (.inl ⟨rfl, fun h => hc (by simp [h])⟩)) ?_
      simp only [runTok, f1, g1, g2, g3, g4, g5, g6, g7, List.append_nil]
    | [x, y, z], _, hpq =>
      simp at hpq; obtain ⟨rfl, rfl, rfl, rfl⟩ := hpq
      refine fin ⟨T3, bcs, .tru, false, false, hs, stk, buf ++ [116] ++ [114] ++ [117]⟩ 22 ⟨rfl, rfl⟩ nofun rfl (.inr (.inr (.inl ⟨rfl, fun h => hc (by simp [h]), fun h => hslash ⟨h, rfl⟩⟩))) ?_
      simp only [runTok, f1, g1, g2, g3, g4, g5, g6, g7, List.append_nil]
    | [x, y, z, w], _, hpq => simp at hpq; exact absurd hpq.2.2.2.2 hq
    | x :: y :: z :: w :: v :: r, _, hpq => simp at hpq
  · have e : asc "false" = [102, 97, 108, 115, 101] := rfl
    rw [e] at hpq
    match p, hp, hpq with
    | [], hp, _ => exact absurd rfl hp
    | [x], _, hpq =>
      simp at hpq; obtain ⟨rfl, rfl⟩ := hpq
      exact fin ⟨F1, bcs, .fals, false, false, hs, stk, buf ++ [102]⟩ 23 ⟨rfl, rfl⟩ nofun rfl (.inr (.inr (.inr (.inl ⟨rfl, fun h => hc (by simp [h])⟩)))) (by simp only [runTok, f2, List.append_nil])
    | [x, y], _, hpq =>
      simp at hpq; obtain ⟨rfl, rfl, rfl⟩ := hpq
      refine fin ⟨F2, bcs, .fals, false, false, hs, stk, buf ++ [102] ++ [97]⟩ 24 ⟨rfl, rfl⟩ nofun rfl (.inr (.inr (.inr (.inr (.inl ⟨rfl, fun h => hc (by simp [h])⟩))))) ?_
      simp only [runTok, f2, g1, g2, g3, g4, g5, g6, g7, List.append_nil]
    | [x, y, z], _, hpq =>
      simp at hpq; obtain ⟨rfl, rfl, rfl, rfl⟩ := hpq
      refine fin ⟨F3, bcs, .fals, false, false, hs, stk, buf ++ [102] ++ [97] ++ [108]⟩ 25 ⟨rfl, rfl⟩ nofun rfl (.inr (.inr (.inr (.inr (.inr (.inl ⟨rfl, fun h => hc (by simp [h])⟩)))))) ?_
      simp only [runTok, f2, g1, g2, g3, g4, g5, g6, g7, List.append_nil]
    | [x, y, z, w], _, hpq =>
      simp at hpq; obtain ⟨rfl, rfl, rfl, rfl, rfl⟩ := hpq
      refine fin ⟨F4, bcs, .fals, false, false, hs, stk, buf ++ [102] ++ [97] ++ [108] ++ [115]⟩ 26 ⟨rfl, rfl⟩ nofun rfl (.inr (.inr (.inr (.inr (.inr (.inr (.inl ⟨rfl, fun h => hc (by simp [h]), fun h => hslash ⟨h, rfl⟩⟩))))))) ?_
      simp only [runTok, f2, g1, g2, g3, g4, g5, g6, g7, List.append_nil]
    | [x, y, z, w, v], _, hpq => simp at hpq; exact absurd hpq.2.2.2.2.2 hq
    | x :: y :: z :: w :: v :: u :: r, _, hpq => simp at hpq
  · have e : asc "null" = [110, 117, 108, 108] := rfl
    rw [e] at hpq
    match p, hp, hpq with
    | [], hp, _ => exact absurd rfl hp
    | [x], _, hpq =>
      simp at hpq; obtain ⟨rfl, rfl⟩ := hpq
      exact fin ⟨N1, bcs, .null, false, false, hs, stk, buf ++ [110]⟩ 27 ⟨rfl, rfl⟩ nofun rfl (.inr (.inr (.inr (.inr (.inr (.inr (.inr (.inl ⟨rfl, fun h => hc (by simp [h])⟩)))))))) (by simp only [runTok, f3, List.append_nil])
    | [x, y], _, hpq =>
      simp at hpq; obtain ⟨rfl, rfl, rfl⟩ := hpq
      refine fin ⟨N2, bcs, .null, false, false, hs, stk, buf ++ [110] ++ [117]⟩ 28 ⟨rfl, rfl⟩ nofun rfl (.inr (.inr (.inr (.inr (.inr (.inr (.inr (.inr (.inl ⟨rfl, fun h => hc (by simp [h])⟩))))))))) ?_
      simp only [runTok, f3, g1, g2, g3, g4, g5, g6, g7, List.append_nil]
    | [x, y, z], _, hpq =>
      simp at hpq; obtain ⟨rfl, rfl, rfl, rfl⟩ := hpq
      refine fin ⟨N3, bcs, .null, false, false, hs, stk, buf ++ [110] ++ [117] ++ [108]⟩ 29 ⟨rfl, rfl⟩ nofun rfl (.inr (.inr (.inr (.inr (.inr (.inr (.inr (.inr (.inr ⟨rfl, fun h => hc (by simp [h]), fun h => hslash ⟨h, rfl⟩⟩))))))))) ?_
      simp only [runTok, f3, g1, g2, g3, g4, g5, g6, g7, List.append_nil]
    | [x, y, z, w], _, hpq => simp at hpq; exact absurd hpq.2.2.2.2 hq
    | x :: y :: z :: w :: v :: r, _, hpq => simp at hpq

/-- `[1, fal` followed by `]`. -/
example : ∃ t', runTok Tok.init [] (asc "[1, " ++ asc "fal" ++ 0x5d :: []) = .rej t' [.arrBegin, .uint 1] :=
  literals_complete_partial (asc "[1, ") ⟨VA, 0, .none, false, false, 0, [.array, .done], []⟩ _ (by decide +kernel)
    ⟨by decide, by decide, by decide, by decide⟩ (asc "false") (asc "fal") (asc "se") 0x5d []
    (by decide) rfl (by decide) (by decide) (by decide) (by decide)

end Verif.JsonTok

namespace Verif.JsonDrv
open Verif.JsonTok Verif.Build

/-! ## C09 at the level of the parser object -/

/-- C09.  Whenever the parser ends with a complete document, whatever the input blocks, the
callbacks it made form exactly one properly nested list or map, and they are what the value
builder received. -/
theorem parser_bracketed (fo : FloatOps) (blocks : List Bytes) (p : JP) (left : List Bytes)
    (h : parse fo started blocks = .ok (p, left)) (he : p.status = .end) :
    IsDoc p.log ∧ callbacks fo started.build p.log = .ok p.build := by
  rcases parse_good (.inl (started_inv fo)) h with h | h | h
  · rcases h.live with h' | h' <;> rw [he] at h' <;> cases h'
  · exact ⟨h.doc, h.built⟩
  · rw [he] at h; cases h

/-- C09.  A value is returned only for a complete, properly nested callback sequence, from
which it is built. -/
theorem deserialize_bracketed (fo : FloatOps) (blocks : List Bytes) (v : Val) (left : List Bytes)
    (h : deserialize fo blocks = .ok (v, left)) :
    ∃ evs b b', IsDoc evs ∧ callbacks fo started.build evs = .ok b ∧
      event fo.fltText b .endDoc = .ok b' ∧ b'.result = v := by
  rw [deserialize_eq] at h
  simp only [Out.bind_eq_ok] at h
  obtain ⟨⟨p, l⟩, h1, h2⟩ := h
  simp only at h2
  split at h2
  · rename_i hs
    obtain ⟨b, hb, h2⟩ := Out.bind_eq_ok.1 h2
    have := parser_bracketed fo blocks p l h1 hs
    simp at h2
    exact ⟨p.log, p.build, b, this.1, this.2, hb, h2.1⟩
  · cases h2

/-- A concrete parse (with a stand-in for the C library's number conversions). -/
def fo0 : FloatOps := ⟨fun t => UInt64.ofNat t.length, fun _ => [0x30]⟩

example : deserialize fo0 [asc "[1, {\"a\": [t", asc "rue]}] tail"] =
    .ok (.list [.uint 1, .map [([97], .list [.bool true])]], [asc " tail"]) := rfl

/-! ## C05 -/

theorem parseBlock_append (fo : FloatOps) (p : JP) (a b : Bytes) :
    parseBlock fo p (a ++ b) = (parseBlock fo p a >>= fun r =>
      if r.2 = [] then parseBlock fo r.1 b else .ok (r.1, r.2 ++ b)) := by
  induction a generalizing p with
  | nil => rfl
  | cons c cs ih =>
    simp only [List.cons_append, parseBlock]
    split
    · cases feed fo p c with
      | ok p' => simp only [Out.bind_ok]; exact ih p'
      | throw e => rfl
      | ub => rfl
    · simp

/-- Parsing the whole text as one block. -/
def parseAll (fo : FloatOps) (p : JP) (text : Bytes) : Out (JP × Bytes) :=
  parseBlock fo p text >>= fun r =>
    if r.2 = [] ∧ running r.1 then .ok (atEof r.1, []) else .ok r

theorem parse_parseAll (fo : FloatOps) (p : JP) (bs : List Bytes) (h : ∀ b ∈ bs, b ≠ []) :
    (parse fo p bs >>= fun r => Out.ok (r.1, r.2.flatten)) = parseAll fo p bs.flatten := by
  induction bs generalizing p with
  | nil =>
    simp only [parse, parseAll, List.flatten_nil, parseBlock, Out.bind_ok]
    by_cases hr : running p = true <;> simp [hr]
  | cons b bs ih =>
    cases b with
    | nil => exact absurd rfl (h [] (by simp))
    | cons c cs =>
      have ih' := fun p => ih p (fun b hb => h b (by simp [hb]))
      by_cases hr : running p = true
      · unfold parse parseAll
        rw [if_pos hr, List.flatten_cons, parseBlock_append]
        cases hb : parseBlock fo p (c :: cs) with
        | ok r =>
          simp only [Out.bind_ok]
          by_cases hl : r.2 = []
          · rw [if_pos hl, if_pos hl]
            have := ih' r.1
            simp only [parseAll] at this
            exact this
          · rw [if_neg hl, if_neg hl]
            simp [hl]
        | throw e => rfl
        | ub => rfl
      · unfold parse parseAll
        rw [if_neg hr, List.flatten_cons, List.cons_append, parseBlock, if_neg hr]
        simp

/-- C05.  The outcome (value, exception, and the bytes left unread) depends only on the bytes
of the stream, not on how they are cut into non-empty blocks. -/
theorem chunking_independent (fo : FloatOps) (bs bs' : List Bytes) (h : ∀ b ∈ bs, b ≠ [])
    (h' : ∀ b ∈ bs', b ≠ []) (e : bs.flatten = bs'.flatten) :
    (fun r => (r.1, r.2.flatten)) <$> deserialize fo bs =
    (fun r => (r.1, r.2.flatten)) <$> deserialize fo bs' := by
  have key : ∀ bs, (∀ b ∈ bs, b ≠ []) → (fun r => (r.1, r.2.flatten)) <$> deserialize fo bs =
      (parseAll fo started bs.flatten >>= fun r =>
      match r.1.status with
      | .end => (event fo.fltText r.1.build .endDoc >>= fun b => pure (b.result, r.2))
      | _ => .throw .runtime) := by
    intro bs h
    rw [deserialize_eq, ← parse_parseAll fo started bs h]
    cases parse fo started bs with
    | ok r =>
      simp only [Out.bind_ok]
      cases r.1.status <;> first | rfl | skip
      simp only
      cases event fo.fltText r.1.build .endDoc <;> rfl
    | throw e => rfl
    | ub => rfl
  rw [key bs h, key bs' h', e]

example : (fun r => (r.1, r.2.flatten)) <$> deserialize fo0 [asc "[", asc "12", asc "3, nul", asc "l]["] =
    .ok (.list [.uint 123, .null], asc "[") := by
  rw [chunking_independent fo0 _ [asc "[123, null]["] (by decide) (by decide) (by decide)]
  rfl

/-! ## C07 at the level of the parser object -/

/-- C07, finding: the parser ignores rejections before the first bracket but the rejected
characters stay in the text buffer, so `x[1]` makes it use a number variable that was never
set. -/
theorem parser_safe_false (fo : FloatOps) : deserialize fo [asc "x[1]"] = .ub := rfl

/-- C51, finding: for the same reason text before a document is absorbed into it: `1[5]` is
read as `[15]`. -/
theorem leading_text_absorbed (fo : FloatOps) :
    deserialize fo [asc "1[5]"] = .ok (.list [.uint 15], []) := rfl

theorem asString_ne_ub (ft : UInt64 → Bytes) (v : Val) : asString ft v ≠ .ub := by
  cases v <;> simp [asString]
  rename_i b; cases b <;> simp [asString]

theorem setTop_ne_ub (ft : UInt64 → Bytes) (s : BState) (v : Val) : setTop ft s v ≠ .ub := by
  unfold setTop
  split
  · simp
  · rename_i f rest hf
    cases f with
    | root a b => simp [setVal]
    | list xs => simp [setVal]
    | map m k =>
      cases k with
      | some k => simp [setVal]
      | none =>
        simp only [setVal]
        cases h : asString ft v with
        | ok k => simp
        | throw e => simp
        | ub => exact absurd h (asString_ne_ub ft v)

theorem finish_ne_ub (ft : UInt64 → Bytes) (s : BState) : finish ft s ≠ .ub := by
  unfold finish
  split
  · simp
  · simp
  · exact setTop_ne_ub _ _ _

theorem event_ne_ub (ft : UInt64 → Bytes) (s : BState) (e : PEv) : event ft s e ≠ .ub := by
  unfold event
  split
  · simp
  · cases e <;> simp only
    all_goals first
      | exact finish_ne_ub _ _
      | exact setTop_ne_ub _ _ _
      | (simp; done)
      | (split <;> first | exact finish_ne_ub _ _ | simp)

/-- A blob string whose base64 text contains the one character the decoder mishandles (C27). -/
def BadBlob (e : JEv) : Prop := ∃ s, e = .str s ∧ s.take 5 = blobTag ∧ (0x7b : UInt8) ∈ s.drop 5

theorem callbacks_ub {fo : FloatOps} {b : BState} {evs : List JEv} (h : callbacks fo b evs = .ub) :
    ∃ e ∈ evs, BadBlob e := by
  induction evs generalizing b with
  | nil => cases h
  | cons x xs ih =>
    simp only [callbacks] at h
    cases hx : callbackEvent fo x with
    | throw e => rw [hx] at h; cases h
    | ub =>
      refine ⟨x, by simp, ?_⟩
      cases x <;> simp only [callbackEvent] at hx <;> try cases hx
      rename_i s
      split at hx
      · rename_i hs
        refine ⟨s, rfl, hs, ?_⟩
        apply Classical.byContradiction
        intro hn
        obtain ⟨r, hr⟩ := B64.decode_total_partial _ hn
        rw [hr] at hx; cases hx
      · cases hx
    | ok ev =>
      rw [hx, Out.bind_ok] at h
      cases he : event fo.fltText b ev with
      | throw e => rw [he] at h; cases h
      | ub => exact absurd he (event_ne_ub _ _ _)
      | ok b' =>
        rw [he, Out.bind_ok] at h
        obtain ⟨e, h1, h2⟩ := ih h
        exact ⟨e, by simp [h1], h2⟩

/-- The callbacks of a tokenizer result. -/
def evsOf : StepR → List JEv
  | .cont _ e => e
  | .rej _ e => e
  | .ub => []

theorem parseBlock_ub {fo : FloatOps} {b0 : BState} {p : JP} {cs : Bytes} (h : Inv fo b0 p)
    (hb : BufOk p.tok) (hu : parseBlock fo p cs = .ub) :
    (∃ t, runTok p.tok p.log cs = .rej t []) ∨
    ∃ pre, pre <+: cs ∧ ∃ e ∈ evsOf (runTok p.tok p.log pre), BadBlob e := by
  induction cs generalizing p with
  | nil => cases hu
  | cons c cs ih =>
    unfold parseBlock at hu
    split at hu
    case isFalse => cases hu
    rename_i hr
    have hR := step_R c h.shape
    have stop : ∀ q : JP, running q = false → parseBlock fo q cs ≠ .ub := by
      intro q hq
      cases cs with
      | nil => simp [parseBlock]
      | cons a as => simp [parseBlock, hq]
    cases hf : feed fo p c with
    | throw e => rw [hf] at hu; cases hu
    | ub =>
      right
      refine ⟨[c], ⟨cs, rfl⟩, ?_⟩
      unfold feed at hf
      simp only at hf
      split at hf
      · rename_i hc; rw [hc] at hR; exact absurd hb hR
      · rename_i t evs hc
        cases hcb : callbacks fo p.build evs with
        | ok b => rw [hcb] at hf; cases hf
        | throw e => rw [hcb] at hf; cases hf
        | ub =>
          obtain ⟨e, h1, h2⟩ := callbacks_ub hcb
          exact ⟨e, by simp [runTok, hc, evsOf, h1], h2⟩
      · rename_i t evs hc
        cases hcb : callbacks fo p.build evs with
        | ok b => rw [hcb] at hf; cases hf
        | throw e => rw [hcb] at hf; cases hf
        | ub =>
          obtain ⟨e, h1, h2⟩ := callbacks_ub hcb
          exact ⟨e, by simp [runTok, hc, evsOf, h1], h2⟩
    | ok p' =>
      rw [hf, Out.bind_ok] at hu
      rcases feed_inv h hf with hi | hi | hi
      · cases hc : charStep p.tok c with
        | ub => rw [hc] at hR; exact absurd hb hR
        | cont t evs =>
          rw [hc] at hR
          have ht : p'.tok = t ∧ p'.log = p.log ++ evs := by
            unfold feed at hf
            simp only [hc] at hf
            simp only [Out.bind_eq_ok] at hf
            obtain ⟨p1, ⟨b, _, hp1⟩, hf⟩ := hf
            have hp1 := Out.ok.inj hp1
            have hf := Out.ok.inj hf
            generalize (if evs ≠ [] ∧ p.status = .begin then Status.ok else p.status) = st at hp1
            subst hp1
            simp only at hf
            split at hf
            · split at hf
              · subst hf; have := hi.live; simp at this
              · subst hf; have := hi.live; simp at this
            · subst hf; exact ⟨rfl, rfl⟩
          have hb' : BufOk p'.tok := by rw [ht.1]; exact hR.2 hb
          rcases ih hi hb' hu with ⟨t', h1⟩ | ⟨pre, ⟨s, h1⟩, h2⟩
          · left; refine ⟨t', ?_⟩
            rw [ht.1, ht.2] at h1
            simp [runTok, hc, h1]
          · right
            refine ⟨c :: pre, ⟨s, by rw [← h1]; rfl⟩, ?_⟩
            rw [ht.1, ht.2] at h2
            simpa [runTok, hc] using h2
        | rej t evs =>
          rcases h.live with hl | hl
          · left
            have hs := h.shape
            rw [h.begun hl] at hs
            obtain ⟨rfl, _⟩ := rej_nil hs hc
            exact ⟨t, by simp [runTok, hc, h.begun hl]⟩
          · exfalso
            unfold feed at hf
            simp only [hc] at hf
            simp only [Out.bind_eq_ok] at hf
            obtain ⟨p1, ⟨b, _, hp1⟩, hf⟩ := hf
            have hp1 := Out.ok.inj hp1
            have hf := Out.ok.inj hf
            subst hp1
            simp [hl] at hf
            subst hf
            have := hi.live
            simp at this
      · exact absurd hu (stop p' (by simp [running, hi.ended]))
      · exact absurd hu (stop p' (by simp [running, hi]))

/-- C07, the part that holds for the parser object.  Parsing is undefined only if the text is
rejected before its first bracket (the finding above) or a blob string contains the character
the base64 decoder mishandles (C27).  In particular the tokenizer itself stays in its tables
for every text that starts with a bracket after blanks and comments.
Missing: texts with leading junk, where the claim is false. -/
theorem parser_safe_partial (fo : FloatOps) (text : Bytes) (hu : deserialize fo [text] = .ub) :
    (∃ t, runTok Tok.init [] text = .rej t []) ∨
    ∃ pre, pre <+: text ∧ ∃ e ∈ evsOf (runTok Tok.init [] pre), BadBlob e := by
  cases text with
  | nil => cases hu
  | cons c cs =>
    rw [deserialize_eq] at hu
    have : parse fo started [c :: cs] = .ub ∨ ∃ r, parse fo started [c :: cs] = .ok r := by
      cases h : parse fo started [c :: cs] with
      | ok r => exact .inr ⟨r, rfl⟩
      | throw e => rw [h] at hu; cases hu
      | ub => exact .inl rfl
    rcases this with h | ⟨r, h⟩
    · have hp : parseBlock fo started (c :: cs) = .ub := by
        unfold parse at h
        rw [if_pos (by rfl)] at h
        cases hb : parseBlock fo started (c :: cs) with
        | ub => rfl
        | throw e => rw [hb] at h; cases h
        | ok r =>
          rw [hb, Out.bind_ok] at h
          simp only at h
          split at h <;> simp [parse] at h
      exact parseBlock_ub (started_inv fo) init_bufOk hp
    · rw [h, Out.bind_ok] at hu
      split at hu
      · cases he : event fo.fltText r.1.build .endDoc with
        | ok b => rw [he] at hu; cases hu
        | throw e => rw [he] at hu; cases hu
        | ub => exact absurd he (event_ne_ub _ _ _)
      · cases hu

/-- Texts whose first non-blank byte is a bracket are not rejected before it. -/
theorem bracket_first (ws rest : Bytes) (c : UInt8) (hw : ∀ w ∈ ws, w ∈ [32, 9, 10, 13])
    (hc : c = 0x5b ∨ c = 0x7b) (t : Tok) : runTok Tok.init [] (ws ++ c :: rest) ≠ .rej t [] := by
  induction ws with
  | nil =>
    have mono : ∀ (cs : Bytes) (t0 : Tok) (e : List JEv), e ≠ [] → ∀ t, runTok t0 e cs ≠ .rej t [] := by
      intro cs
      induction cs with
      | nil => intro t0 e _ t h; cases h
      | cons c cs ih =>
        intro t0 e he t
        simp only [runTok]
        cases charStep t0 c with
        | ub => simp
        | rej a b => simp [he]
        | cont a b => exact ih _ _ (by simp [he]) t
    simp only [List.nil_append]
    rcases hc with rfl | rfl
    · exact mono rest ⟨AR, 0, .none, false, false, 0, [.array, .done], []⟩ [.arrBegin] (by simp) t
    · exact mono rest ⟨OB, 0, .none, false, false, 0, [.key, .done], []⟩ [.objBegin] (by simp) t
  | cons w ws ih =>
    have hw1 := hw w (by simp)
    have : charStep Tok.init w = .cont Tok.init [] := by
      simp only [List.mem_cons, List.not_mem_nil, or_false] at hw1
      rcases hw1 with rfl | rfl | rfl | rfl <;> rfl
    simp only [List.cons_append, runTok, this, List.append_nil]
    exact ih (fun x hx => hw x (by simp [hx]))

/-- C07, for documents that start with a bracket and contain no such blob string. -/
theorem parser_safe_bracket_partial (fo : FloatOps) (ws rest : Bytes) (c : UInt8)
    (hw : ∀ w ∈ ws, w ∈ [32, 9, 10, 13]) (hc : c = 0x5b ∨ c = 0x7b)
    (hb : ∀ pre, pre <+: ws ++ c :: rest → ∀ e ∈ evsOf (runTok Tok.init [] pre), ¬ BadBlob e) :
    deserialize fo [ws ++ c :: rest] ≠ .ub := by
  intro hu
  rcases parser_safe_partial fo _ hu with ⟨t, h⟩ | ⟨pre, h1, e, h2, h3⟩
  · exact bracket_first ws rest c hw hc t h
  · exact hb pre h1 e h2 h3

example : deserialize fo0 [asc " [1, \"x"] ≠ .ub := by
  refine parser_safe_bracket_partial fo0 (asc " ") (asc "1, \"x") 0x5b (by decide) (.inl rfl) ?_
  intro pre hp e he hbad
  obtain ⟨s, rfl, _⟩ := hbad
  have : ∀ n : _root_.Fin 9, ∀ e ∈ evsOf (runTok Tok.init [] ((asc " [1, \"x").take n)), (match e with | .str _ => false | _ => true) = true := by
    decide +kernel
  have hl : pre.length ≤ 7 := hp.length_le
  have := this ⟨pre.length, by omega⟩ (.str s) (by
    rw [show (asc " [1, \"x").take pre.length = pre from (List.prefix_iff_eq_take.1 hp).symm]; exact he)
  simp at this

end Verif.JsonDrv
