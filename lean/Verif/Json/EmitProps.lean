import Verif.Json.Emit
/-!
# C03: the emitter's buffering is transparent
-/

namespace Verif.JsonEmit

/-- The bytes a piece stands for. -/
def Chunk.text : Chunk → Bytes
  | .raw b => b
  | .spaces n => List.replicate n 32
  | .flush => []

/-- The bytes of a list of pieces. -/
def text (cs : List Chunk) : Bytes := cs.flatMap Chunk.text

@[simp] theorem text_nil : text [] = [] := rfl
@[simp] theorem text_cons (c : Chunk) (cs : List Chunk) : text (c :: cs) = c.text ++ text cs := by simp [text]
@[simp] theorem text_append (a b : List Chunk) : text (a ++ b) = text a ++ text b := by simp [text]

theorem writeAll_out (w : Nat → Nat) (cap : Nat) (m : Mach) (data : Bytes) :
    (writeAll w cap m data).out = m.out ++ data ∧ (writeAll w cap m data).buf = m.buf := by
  induction m, data using writeAll.induct w cap with
  | case1 m => simp [writeAll]
  | case2 m x xs n ih =>
    rw [writeAll]
    refine ⟨?_, ih.2⟩
    have h1 := ih.1
    dsimp only at h1 ⊢
    rw [h1, List.append_assoc, List.take_append_drop]

theorem flush_out (w : Nat → Nat) (m : Mach) : (flush w m).out = m.out ++ m.buf ∧ (flush w m).buf = [] := by
  simp [flush, writeAll_out]

theorem store_ok {m : Mach} {b : Bytes} (h : m.buf.length + b.length ≤ 512) :
    store m b = .ok { m with buf := m.buf ++ b } := by
  unfold store; rw [if_neg (by omega)]

theorem execChunk_text (w : Nat → Nat) (m : Mach) (c : Chunk) (h : m.buf.length ≤ 512) :
    ∃ m', execChunk w m c = .ok m' ∧ m'.out ++ m'.buf = m.out ++ m.buf ++ c.text ∧ m'.buf.length ≤ 512 := by
  have hf := flush_out w m
  have key : ∀ b : Bytes, b.length ≤ 128 →
      ∃ m', store (if b.length + m.buf.length > 512 then flush w m else m) b = .ok m' ∧
        m'.out ++ m'.buf = m.out ++ m.buf ++ b ∧ m'.buf.length ≤ 512 := by
    intro b hb
    by_cases hc : b.length + m.buf.length > 512
    · rw [if_pos hc, store_ok (by rw [hf.2]; simp; omega)]
      exact ⟨_, rfl, by simp [hf], by simp [hf.2]; omega⟩
    · rw [if_neg hc, store_ok (by omega)]
      exact ⟨_, rfl, by simp, by simp; omega⟩
  cases c with
  | flush => exact ⟨_, rfl, by simp [hf, Chunk.text], by simp [hf.2]⟩
  | raw b =>
    simp only [execChunk, Chunk.text]
    by_cases hb : b.length > 128
    · rw [if_pos hb]
      refine ⟨_, rfl, ?_, ?_⟩
      · rw [(writeAll_out _ _ _ _).1, (writeAll_out _ _ _ _).2, hf.1, hf.2, List.append_nil]
      · rw [(writeAll_out _ _ _ _).2, hf.2]; simp
    · rw [if_neg hb]; exact key b (by omega)
  | spaces n =>
    simp only [execChunk, Chunk.text]
    by_cases hb : n > 128
    · rw [if_pos hb]
      refine ⟨_, rfl, ?_, ?_⟩
      · rw [(writeAll_out _ _ _ _).1, (writeAll_out _ _ _ _).2, hf.1, hf.2, List.append_nil]
      · rw [(writeAll_out _ _ _ _).2, hf.2]; simp
    · rw [if_neg hb]
      have := key (List.replicate n 32) (by rw [List.length_replicate]; omega)
      rwa [List.length_replicate] at this

theorem exec_text (w : Nat → Nat) (m : Mach) (cs : List Chunk) (h : m.buf.length ≤ 512) :
    ∃ m', exec w m cs = .ok m' ∧ m'.out ++ m'.buf = m.out ++ m.buf ++ text cs ∧ m'.buf.length ≤ 512 := by
  induction cs generalizing m with
  | nil => exact ⟨m, rfl, by simp, h⟩
  | cons c cs ih =>
    obtain ⟨m1, h1, h2, h3⟩ := execChunk_text w m c h
    obtain ⟨m2, g1, g2, g3⟩ := ih m1 h3
    refine ⟨m2, by simp [exec, h1, g1], ?_, g3⟩
    rw [g2, h2, text_cons]; simp only [List.append_assoc]

/-- C03.  For every sequence of emitter calls and every way the output splits its writes, the
bytes the output ends up with are exactly the requested pieces in order: nothing is lost,
duplicated or reordered, and the 512-byte buffer is never overrun. -/
theorem emitter_output_integrity (ff : FloatFmt) (c : Cfg) (w : Nat → Nat) (ops : List Op) :
    emitAll ff c w ops = (fun r => text r.1) <$> emitOps ff c [] ops := by
  unfold emitAll
  cases emitOps ff c [] ops with
  | throw e => rfl
  | ub => rfl
  | ok r =>
    obtain ⟨m, h1, h2, h3⟩ := exec_text w ⟨[], [], 0⟩ r.1 (by simp)
    simp only [Out.bind_ok, h1, Out.pure_eq, Out.map_ok]
    rw [(flush_out w m).1, h2]; simp

/-- C03.  At no moment, whatever pieces were asked for, does the emitter hold more than the 512
bytes its buffer has room for. -/
theorem emitter_buffer_fits (w : Nat → Nat) (cs : List Chunk) :
    ∃ m, exec w ⟨[], [], 0⟩ cs = .ok m ∧ m.buf.length ≤ 512 := by
  obtain ⟨m, h1, _, h3⟩ := exec_text w ⟨[], [], 0⟩ cs (by simp)
  exact ⟨m, h1, h3⟩

/-- C03.  In particular the output does not depend on how writes are split. -/
theorem emitter_output_independent (ff : FloatFmt) (c : Cfg) (w w' : Nat → Nat) (ops : List Op) :
    emitAll ff c w ops = emitAll ff c w' ops := by
  rw [emitter_output_integrity, emitter_output_integrity]

/-- An output taking one byte at a time, and a string longer than the buffer. -/
example : emitAll (fun _ _ => []) ⟨true, false, 4, 17⟩ (fun _ => 0)
      [.beginList, .int (-5), .beginMap, .str [97], .tru, .endMap, .endList] =
    .ok ("[\n    -5,\n    {\n        \"a\": true\n    }\n]".toList.map fun c => UInt8.ofNat c.toNat) := by
  rw [emitter_output_integrity]; decide +kernel

/-- Closing calls. -/
def Op.isEnd : Op → Bool
  | .endMap => true
  | .endList => true
  | _ => false

/-- A call is undefined only if it closes a container that was never opened, or emits a
blob (whose limits are those of C25 and C26). -/
theorem emitOp_ub {ff : FloatFmt} {c : Cfg} {st : List ES} {o : Op} (h : emitOp ff c st o = .ub) :
    (st = [] ∧ o.isEnd = true) ∨ ∃ segs, o = .blob segs := by
  cases o
  case endMap => left; cases st <;> simp_all [emitOp, Op.isEnd]
  case endList => left; cases st <;> simp_all [emitOp, Op.isEnd]
  case blob segs => exact .inr ⟨_, rfl⟩
  case flt b =>
    simp only [emitOp] at h
    split at h
    · split at h <;> cases h
    · cases h
  all_goals (simp only [emitOp] at h; cases h)

end Verif.JsonEmit
