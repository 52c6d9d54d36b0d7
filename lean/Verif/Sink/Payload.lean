import Verif.Sink.Props
import Verif.Payload.Align
/-!
# Documents with a payload on outputs that fail (C126)

`SerializeWithPayload` to JSON (src/Payload.cc 132-195): the header as in Sink/Model, then line feeds and a NUL, then
the payload.
-/

namespace Verif.Sink
open Verif JsonEmit

/-! ## Model -/

/-- The padding: line feeds and a NUL (src/Payload.cc 175-176). -/
def padText (num : Nat) : Bytes := List.replicate num 10 ++ [0]

/-- The loop writing the padding (src/Payload.cc 177-180).  It ends when `num` bytes are written, although there are
`num + 1`. -/
def padLoop (d : Dev) (num : Nat) (s : Sink) (written : Nat) : Sink :=
  if written < num then
    match h : (s.write d ((padText num).drop written)).1.st with
    | .done => padLoop d num (s.write d ((padText num).drop written)).1 (written + (s.write d ((padText num).drop written)).2)
    | _ => (s.write d ((padText num).drop written)).1
  else s
termination_by s.left
decreasing_by
  revert h
  unfold Sink.write
  split
  · simp
  · next h2 =>
    split
    · simp
    · simp [h2]
  · next h1 h2 h3 =>
    intro h
    cases hl : s.left with
    | zero => exact absurd hl (h2 h)
    | succ l => exact absurd hl (h3 l h)

/-- The loop over the buffers of the payload (src/Payload.cc 183-192). -/
def slabLoop (d : Dev) (s : Sink) (slabs : List Bytes) : Sink := slabs.foldl (fun s b => writeLoop d b.length s b) s

/-- The header in the pieces `cs`, `emitter.Flush()`, the padding, and the payload if there is one to be written, with
`out->Flush()` (src/Payload.cc 167-194).  `NumBytesWritten` is what the output has taken. -/
def payRun (d : Dev) (calls : Nat) (cs : List Chunk) (pay : Option (List Bytes)) : Sink :=
  let s := jrun d calls cs
  let s := padLoop d (Payload.padLen s.got.length) s 0
  match pay with
  | none => s
  | some slabs => (slabLoop d s slabs).flush d

/-! ## Specification -/

/-- What is to be written. -/
def payDoc (T : Bytes) (pay : Option (List Bytes)) : Bytes :=
  T ++ padText (Payload.padLen T.length) ++ (pay.getD []).flatten

/-- The same without the NUL in front of the payload. -/
def payDocNoNul (T : Bytes) (pay : Option (List Bytes)) : Bytes :=
  T ++ List.replicate (Payload.padLen T.length) 10 ++ (pay.getD []).flatten

/-! ## The loops -/

/-- What is known when `T` has been asked for. -/
structure Took (s : Sink) (T : Bytes) : Prop where
  beginning : s.got <+: T
  all : s.st = .done → s.got = T

theorem jrun_took (d : Dev) (calls : Nat) (cs : List Chunk) : Took (jrun d calls cs) (text cs) :=
  ⟨json_beginning d calls cs, json_all_taken d calls cs⟩

theorem loop_took {d : Dev} {s : Sink} {T : Bytes} (h : Took s T) (cap : Nat) (b : Bytes) :
    Took (writeLoop d cap s b) (T ++ b) := by
  have hi : Inv ⟨[], s⟩ T := ⟨h.beginning, fun hd => by simp [h.all hd]⟩
  have := loop_inv (d := d) (b := b) hi rfl cap
  exact ⟨this.beginning, fun hd => by simpa using this.all hd⟩

theorem slabs_took {d : Dev} (slabs : List Bytes) : ∀ {s : Sink} {T : Bytes}, Took s T → Took (slabLoop d s slabs) (T ++ slabs.flatten) := by
  induction slabs with
  | nil => intro s T h; simpa [slabLoop] using h
  | cons b r ih =>
    intro s T h
    have := ih (loop_took (d := d) h b.length b)
    simpa [slabLoop] using this

theorem flush_took {d : Dev} {s : Sink} {T : Bytes} (h : Took s T) : Took (s.flush d) T := by
  obtain ⟨h1, h2⟩ := flush_got d s
  exact ⟨by rw [h1]; exact h.beginning, fun hd => by rw [h1]; exact h.all (h2 hd)⟩

theorem write_le (d : Dev) (s : Sink) (b : Bytes) : (s.write d b).2 ≤ b.length := by
  unfold Sink.write
  split
  · exact Nat.zero_le _
  · split
    · exact Nat.zero_le _
    · exact Nat.min_le_right _ _
  · exact Nat.zero_le _

theorem padLoop_over {d : Dev} {num written : Nat} {s : Sink} (h : s.st ≠ .done) : padLoop d num s written = s := by
  rw [padLoop]
  split
  · split
    · next hd => rw [write_over h] at hd; exact absurd hd h
    · rw [write_over h]
  · rfl

theorem padText_length (num : Nat) : (padText num).length = num + 1 := by simp [padText]

/-- The padding comes with its NUL, or without it. -/
theorem padLoop_got (d : Dev) (num : Nat) (s : Sink) (written : Nat) (hw : written ≤ num) (hs : s.st = .done) :
    (padLoop d num s written).got <+: s.got ++ (padText num).drop written ∧
    ((padLoop d num s written).st = .done → (padLoop d num s written).got = s.got ++ (padText num).drop written ∨
      (padLoop d num s written).got = s.got ++ List.replicate (num - written) 10) := by
  induction s, written using padLoop.induct d num with
  | case1 s written hlt hst ih =>
    rw [padLoop, if_pos hlt]
    have hg := (write_got d s ((padText num).drop written)).1
    have hl := write_le d s ((padText num).drop written)
    rw [List.length_drop, padText_length] at hl
    generalize hr : s.write d ((padText num).drop written) = r at *
    obtain ⟨s1, k⟩ := r
    dsimp only at hg hst hl ih ⊢
    split
    rotate_left
    · next hn => exact absurd hst (by simpa using hn)
    by_cases hk : written + k ≤ num
    · obtain ⟨i1, i2⟩ := ih hk hst
      have e : s1.got ++ (padText num).drop (written + k) = s.got ++ (padText num).drop written := by
        rw [hg, List.append_assoc, ← List.drop_drop, List.take_append_drop]
      rw [e] at i1 i2
      refine ⟨i1, fun hd => ?_⟩
      rcases i2 hd with h | h
      · exact .inl h
      · right
        rw [h, hg, List.append_assoc]
        congr 1
        have : ((padText num).drop written).take k = List.replicate k 10 := by
          unfold padText
          rw [List.drop_append_of_le_length (by simp; omega), List.take_append_of_le_length (by simp; omega), List.drop_replicate,
            List.take_replicate]
          congr 1; omega
        rw [this, List.replicate_append_replicate]
        congr 1; omega
    · have e : padLoop d num s1 (written + k) = s1 := by rw [padLoop, if_neg (by omega)]
      rw [e]
      have : ((padText num).drop written).take k = (padText num).drop written :=
        List.take_of_length_le (by rw [List.length_drop, padText_length]; omega)
      rw [hg, this]
      exact ⟨List.prefix_rfl, fun _ => .inl rfl⟩
  | case2 s written hlt hst =>
    rw [padLoop, if_pos hlt]
    split
    · next h => exact absurd h hst
    · refine ⟨?_, fun h => absurd h hst⟩
      rw [(write_got d s _).1]
      exact (List.prefix_append_right_inj _).mpr (List.take_prefix _ _)
  | case3 s written hlt =>
    rw [padLoop, if_neg hlt]
    refine ⟨List.prefix_append _ _, fun _ => .inr ?_⟩
    rw [show num - written = 0 by omega]
    simp

/-- An output that takes blocks whole or throws gets the padding in one call. -/
theorem padLoop_whole {d : Dev} (hd : Decides d) {num : Nat} (h0 : 0 < num) (s : Sink) :
    padLoop d num s 0 = (s.write d (padText num)).1 := by
  by_cases hs : s.st = .done
  · rw [padLoop, if_pos h0, List.drop_zero]
    split
    · next hst =>
      have hk : (s.write d (padText num)).2 = num + 1 := by
        revert hst
        unfold Sink.write
        split
        · intro h; cases h
        · next l _ _ =>
          rcases hd l s.got.length s.safe (padText num).length with e | ⟨k, e⟩
          · rw [e]; intro h; cases h
          · rw [e]; intro _; simp [padText_length]
        · next h1 h2 =>
          exfalso
          cases hl : s.left with
          | zero => exact h1 hs hl
          | succ l => exact h2 l hs hl
      rw [padLoop, if_neg (by omega)]
    · rfl
  · rw [padLoop_over hs, write_over hs]

/-! ## Every output -/

theorem padLen_pos (n : Nat) : 0 < Payload.padLen n := by unfold Payload.padLen; omega

theorem no_nul_prefix {T : Bytes} {num : Nat} : T ++ List.replicate num 10 <+: T ++ padText num :=
  (List.prefix_append_right_inj _).mpr (List.prefix_append _ _)

/-- C126.  Whatever the output does and whenever the program is stopped, what it has taken is a beginning of the
document, or of the document without the NUL in front of the payload. -/
theorem payload_beginning (d : Dev) (calls : Nat) (cs : List Chunk) (pay : Option (List Bytes)) :
    (payRun d calls cs pay).got <+: payDoc (text cs) pay ∨ (payRun d calls cs pay).got <+: payDocNoNul (text cs) pay := by
  have hj := jrun_took d calls cs
  have hp : Took (padLoop d (Payload.padLen (jrun d calls cs).got.length) (jrun d calls cs) 0)
        (text cs ++ padText (Payload.padLen (text cs).length)) ∨
      Took (padLoop d (Payload.padLen (jrun d calls cs).got.length) (jrun d calls cs) 0)
        (text cs ++ List.replicate (Payload.padLen (text cs).length) 10) := by
    by_cases hs : (jrun d calls cs).st = .done
    · have := padLoop_got d (Payload.padLen (jrun d calls cs).got.length) (jrun d calls cs) 0 (Nat.zero_le _) hs
      rw [hj.all hs, List.drop_zero, Nat.sub_zero] at this
      obtain ⟨h1, h2⟩ := this
      rw [hj.all hs]
      by_cases hd : (padLoop d (Payload.padLen (text cs).length) (jrun d calls cs) 0).st = .done
      · rcases h2 hd with h | h
        · exact .inl ⟨h1, fun _ => h⟩
        · exact .inr ⟨by rw [h]; exact List.prefix_rfl, fun _ => h⟩
      · exact .inl ⟨h1, fun h => absurd h hd⟩
    · rw [padLoop_over hs]
      exact .inl ⟨hj.beginning.trans (List.prefix_append _ _), fun h => absurd h hs⟩
  unfold payRun payDoc payDocNoNul
  cases pay with
  | none => rcases hp with h | h <;> simp [h.beginning]
  | some slabs =>
    rcases hp with h | h
    · exact .inl (flush_took (slabs_took slabs h)).beginning
    · exact .inr (flush_took (slabs_took slabs h)).beginning

/-- C126, as far as it is true.  If `SerializeWithPayload` returns, the output has taken the document, or the document
without the NUL in front of the payload. -/
theorem payload_all_taken_partial (d : Dev) (calls : Nat) (cs : List Chunk) (pay : Option (List Bytes))
    (h : (payRun d calls cs pay).st = .done) :
    (payRun d calls cs pay).got = payDoc (text cs) pay ∨ (payRun d calls cs pay).got = payDocNoNul (text cs) pay := by
  have hj := jrun_took d calls cs
  have key : ∀ s, s = padLoop d (Payload.padLen (jrun d calls cs).got.length) (jrun d calls cs) 0 → s.st = .done →
      Took s (text cs ++ padText (Payload.padLen (text cs).length)) ∨
      Took s (text cs ++ List.replicate (Payload.padLen (text cs).length) 10) := by
    intro s e hd
    by_cases hs : (jrun d calls cs).st = .done
    · have := padLoop_got d (Payload.padLen (jrun d calls cs).got.length) (jrun d calls cs) 0 (Nat.zero_le _) hs
      rw [← e, hj.all hs, List.drop_zero, Nat.sub_zero] at this
      rcases this.2 hd with h | h
      · exact .inl ⟨by rw [h]; exact List.prefix_rfl, fun _ => h⟩
      · exact .inr ⟨by rw [h]; exact List.prefix_rfl, fun _ => h⟩
    · rw [e, padLoop_over hs] at hd
      exact absurd hd hs
  unfold payRun payDoc payDocNoNul at *
  dsimp only at *
  generalize padLoop d (Payload.padLen (jrun d calls cs).got.length) (jrun d calls cs) 0 = s at *
  cases pay with
  | none => rcases key s rfl h with k | k <;> simp [k.all h]
  | some slabs =>
    have hs : s.st = .done := by
      have h1 := (flush_got d _).2 h
      have : ∀ (slabs : List Bytes) (s : Sink), (slabLoop d s slabs).st = .done → s.st = .done := by
        intro slabs
        induction slabs with
        | nil => intro s h; exact h
        | cons b r ih =>
          intro s h
          exact ((writeLoop_got d b.length s b).2.2 (ih _ h)).1
      exact this slabs s h1
    rcases key s rfl hs with k | k
    · exact .inl ((flush_took (slabs_took slabs k)).all h)
    · exact .inr ((flush_took (slabs_took slabs k)).all h)

/-- C126, finding: the NUL does get lost.  An output that takes all of the padding but its last byte: the call returns,
and the payload cannot be told from the header any more. -/
theorem payload_nul_lost_false : ∃ (d : Dev) (cs : List Chunk) (pay : Option (List Bytes)),
    (∀ calls, 5 ≤ calls → (payRun d calls cs pay).st = .done ∧ 0 ∉ (payRun d calls cs pay).got) ∧
    (0 : UInt8) ∈ payDoc (text cs) pay := by
  let d : Dev := ⟨fun _ _ _ n => some (if 1 < n then n - 1 else n, 0), fun _ _ _ => 0⟩
  refine ⟨d, [.raw [91]], some [[7]], ?_, by decide⟩
  intro calls h
  obtain ⟨k, rfl⟩ : ∃ k, calls = k + 5 := ⟨calls - 5, by omega⟩
  have hj : jrun d (k + 5) [.raw [91]] = ⟨[91], 0, k + 3, .done⟩ := by
    simp [jrun, jchunk, jflush, Sink.new, writeLoop, Sink.write, Sink.flush, d]
  have hp : padLoop d 30 ⟨[91], 0, k + 3, .done⟩ 0 = ⟨[91] ++ List.replicate 30 10, 0, k + 2, .done⟩ := by
    have hw : Sink.write d ⟨[91], 0, k + 3, .done⟩ (padText 30) = (⟨[91] ++ List.replicate 30 10, 0, k + 2, .done⟩, 30) := by
      simp only [Sink.write, d, padText_length]
      rfl
    rw [padLoop, if_pos (by decide), List.drop_zero, hw]
    dsimp only
    rw [padLoop, if_neg (by decide)]
  have hs : slabLoop d ⟨[91] ++ List.replicate 30 10, 0, k + 2, .done⟩ [[7]] =
      ⟨[91] ++ List.replicate 30 10 ++ [7], 0, k + 1, .done⟩ := by
    rw [slabLoop, List.foldl_cons, List.foldl_nil, writeLoop, if_neg (by decide)]
    have hw : ∀ g, Sink.write d ⟨g, 0, k + 2, .done⟩ ([7].take 1) = (⟨g ++ [7], 0, k + 1, .done⟩, 1) := fun g => rfl
    rw [List.length_singleton, hw]
    dsimp only
    rw [writeLoop, if_pos (by decide)]
  have e : payRun d (k + 5) [.raw [91]] (some [[7]]) = ⟨[91] ++ List.replicate 30 10 ++ [7], 0, k, .done⟩ := by
    unfold payRun
    rw [hj]
    show (slabLoop d (padLoop d 30 _ 0) _).flush d = _
    rw [hp, hs]
    rfl
  rw [e]
  exact ⟨rfl, show (0 : UInt8) ∉ [91] ++ List.replicate 30 10 ++ [7] by decide⟩

/-! ## Outputs that take blocks whole -/

/-- C126.  With outputs that take a block whole or throw (memory, and files and streams that work) nothing gets lost. -/
theorem payload_whole {d : Dev} (hd : Decides d) (calls : Nat) (cs : List Chunk) (pay : Option (List Bytes)) :
    (payRun d calls cs pay).got <+: payDoc (text cs) pay ∧
    ((payRun d calls cs pay).st = .done → (payRun d calls cs pay).got = payDoc (text cs) pay) := by
  have hj := jrun_took d calls cs
  have hp : Took (padLoop d (Payload.padLen (jrun d calls cs).got.length) (jrun d calls cs) 0)
      (text cs ++ padText (Payload.padLen (text cs).length)) := by
    by_cases hs : (jrun d calls cs).st = .done
    · rw [padLoop_whole hd (padLen_pos _), hj.all hs]
      have hw := write_got d (jrun d calls cs) (padText (Payload.padLen (text cs).length))
      refine ⟨by rw [hw.1, hj.all hs]; exact (List.prefix_append_right_inj _).mpr (List.take_prefix _ _), ?_⟩
      unfold Sink.write
      split
      · intro h; cases h
      · next l _ _ =>
        rcases hd l (jrun d calls cs).got.length (jrun d calls cs).safe (padText (Payload.padLen (text cs).length)).length with e | ⟨k, e⟩
        · rw [e]; intro h; cases h
        · rw [e]; intro _; simp [hj.all hs]
      · next h1 h2 =>
        exfalso
        cases hl : (jrun d calls cs).left with
        | zero => exact h1 hs hl
        | succ l => exact h2 l hs hl
    · rw [padLoop_over hs]
      exact ⟨hj.beginning.trans (List.prefix_append _ _), fun h => absurd h hs⟩
  unfold payRun payDoc
  cases pay with
  | none =>
    refine ⟨by simpa using hp.beginning, fun h => ?_⟩
    simpa using hp.all h
  | some slabs =>
    have := flush_took (d := d) (slabs_took (d := d) slabs hp)
    exact ⟨this.beginning, this.all⟩

/-! ## Memory -/

theorem jrun_left {d : Dev} (hd : Decides d) (calls : Nat) (cs : List Chunk) (R : Nat) (h : (text cs).length + cs.length + 1 + R ≤ calls) :
    (jrun d calls cs).st ≠ .stopped ∧ ((jrun d calls cs).st = .done → R ≤ (jrun d calls cs).left) := by
  have fold : ∀ (cs : List Chunk) (m : JMach) (R : Nat), Enough m ((text cs).length + cs.length + R) → Enough (cs.foldl (jchunk d) m) R := by
    intro cs
    induction cs with
    | nil => intro m R h; simpa using h
    | cons c cs ih =>
      intro m R h
      refine ih _ R (jchunk_decides hd c ?_)
      rw [text_cons] at h
      simp only [List.length_append, List.length_cons] at h
      have e : c.text.length + ((text cs).length + cs.length + R + 1) = c.text.length + (text cs).length + (cs.length + 1) + R := by omega
      rw [e]
      exact h
  have := jflush_decides hd (R := R) (fold cs ⟨[], .new calls⟩ (R + 1) ⟨nofun, fun _ => by simp [Sink.new]; omega⟩)
  exact ⟨this.1, fun h => by have := this.2 h; simp only [jflush] at this; unfold jrun jflush; simpa using this⟩

theorem write_decides {d : Dev} {s : Sink} {b : Bytes} {R : Nat} (hl : s.st = .done → R + 1 ≤ s.left) (hs : s.st ≠ .stopped) :
    (s.write d b).1.st ≠ .stopped ∧ ((s.write d b).1.st = .done → R ≤ (s.write d b).1.left) := by
  unfold Sink.write
  split
  · next h h2 => have := hl h; omega
  · next l h h2 =>
    have := hl h
    split
    · exact ⟨nofun, nofun⟩
    · exact ⟨nofun, fun _ => by dsimp only; omega⟩
  · exact ⟨hs, fun h => by have := hl h; show R ≤ s.left; omega⟩

theorem slabs_decides {d : Dev} (hd : Decides d) (slabs : List Bytes) : ∀ (s : Sink) (R : Nat),
    (s.st = .done → slabs.flatten.length + R ≤ s.left) → s.st ≠ .stopped →
    (slabLoop d s slabs).st ≠ .stopped ∧ ((slabLoop d s slabs).st = .done → R ≤ (slabLoop d s slabs).left) := by
  induction slabs with
  | nil => intro s R hl hs; exact ⟨hs, fun h => by have := hl h; show R ≤ s.left; simpa using this⟩
  | cons b r ih =>
    intro s R hl hs
    have h1 : (writeLoop d b.length s b).st ≠ .stopped ∧
        ((writeLoop d b.length s b).st = .done → r.flatten.length + R ≤ (writeLoop d b.length s b).left) := by
      cases b with
      | nil =>
        have e : writeLoop d 0 s [] = s := by rw [writeLoop, if_pos (by rfl)]
        rw [List.length_nil, e]
        exact ⟨hs, fun h => by simpa using hl h⟩
      | cons x b =>
        exact writeLoop_decides hd _ (by simp) s _ _ (fun h => by
          have := hl h
          rw [List.flatten_cons, List.length_append] at this
          omega) hs
    exact ih _ R h1.2 h1.1

theorem write_takes {d : Dev} {lim : Nat} (ht : Takes d lim) {s : Sink} {b : Bytes} (hl : s.got.length + b.length ≤ lim)
    (hs : s.st ≠ .threw) : (s.write d b).1.st ≠ .threw := by
  unfold Sink.write
  split
  · nofun
  · next l _ _ =>
    obtain ⟨k, e⟩ := ht l s.got.length s.safe b.length hl
    rw [e]; nofun
  · exact hs

theorem slabs_takes {d : Dev} {lim : Nat} (ht : Takes d lim) (slabs : List Bytes) : ∀ (s : Sink),
    s.got.length + slabs.flatten.length ≤ lim → s.st ≠ .threw → (slabLoop d s slabs).st ≠ .threw := by
  induction slabs with
  | nil => intro s _ hs; exact hs
  | cons b r ih =>
    intro s hl hs
    rw [List.flatten_cons, List.length_append] at hl
    refine ih _ ?_ (writeLoop_takes ht _ s b (by omega) hs)
    have := (writeLoop_got d b.length s b).2.1.length_le
    rw [List.length_append] at this
    show (writeLoop d b.length s b).got.length + _ ≤ _
    omega

/-- C126.  Into a block of memory: if the document fits, the call returns and all of it is there; if not, it throws,
nothing is written beyond the block, and what is there is a beginning of the document. -/
theorem payload_memory (len : Nat) (cs : List Chunk) (pay : Option (List Bytes)) (calls : Nat)
    (h : (payDoc (text cs) pay).length + cs.length + 3 ≤ calls) :
    ((payDoc (text cs) pay).length ≤ len →
      (payRun (memory len) calls cs pay).st = .done ∧ (payRun (memory len) calls cs pay).got = payDoc (text cs) pay) ∧
    (len < (payDoc (text cs) pay).length →
      (payRun (memory len) calls cs pay).st = .threw ∧ (payRun (memory len) calls cs pay).got.length ≤ len ∧
      (payRun (memory len) calls cs pay).got <+: payDoc (text cs) pay) := by
  have hd : Decides (memory len) := by
    intro l g s n
    simp only [memory]
    split
    · exact .inl rfl
    · exact .inr ⟨n, rfl⟩
  have ht : Takes (memory len) len := by
    intro l g s n h
    exact ⟨n, by simp only [memory]; rw [if_neg (by omega)]⟩
  have kw : ∀ (s : Sink) (b : Bytes), s.got.length ≤ len → (s.write (memory len) b).1.got.length ≤ len := by
    intro s b h
    unfold Sink.write
    split
    · exact h
    · simp only [memory]
      split
      · next h2 => split at h2 <;> exact h
      · next h2 =>
        split at h2
        · cases h2
        · cases h2; simp; omega
    · exact h
  have kf : ∀ s : Sink, s.got.length ≤ len → (s.flush (memory len)).got.length ≤ len := by
    intro s h
    rw [(flush_got _ _).1]; exact h
  have ks : ∀ (slabs : List Bytes) (s : Sink), s.got.length ≤ len → (slabLoop (memory len) s slabs).got.length ≤ len := by
    intro slabs
    induction slabs with
    | nil => intro s h; exact h
    | cons b r ih => intro s h; exact ih _ (writeLoop_keeps (fun s => s.got.length ≤ len) kw _ _ _ h)
  have hlen : (payDoc (text cs) pay).length = (text cs).length + (Payload.padLen (text cs).length + 1) + (pay.getD []).flatten.length := by
    simp only [payDoc, List.length_append, padText_length]
  have hj := jrun_left hd calls cs ((pay.getD []).flatten.length + 2) (by have := padLen_pos (text cs).length; omega)
  have hjt := jrun_took (memory len) calls cs
  have hjl := jrun_keeps (d := memory len) (fun s => s.got.length ≤ len) kw kf calls (Nat.zero_le _) cs
  have hw := payload_whole hd calls cs pay
  have hns : (payRun (memory len) calls cs pay).st ≠ .stopped := by
    unfold payRun
    dsimp only
    rw [padLoop_whole hd (padLen_pos _)]
    have hp := write_decides (d := memory len) (b := padText (Payload.padLen (jrun (memory len) calls cs).got.length))
      (R := (pay.getD []).flatten.length + 1) hj.2 hj.1
    cases pay with
    | none => exact hp.1
    | some slabs =>
      have h1 := slabs_decides hd slabs _ 1 hp.2 hp.1
      exact (flush_decides (R := 0) h1.2 h1.1).1
  have hle : (payRun (memory len) calls cs pay).got.length ≤ len := by
    unfold payRun
    dsimp only
    rw [padLoop_whole hd (padLen_pos _)]
    cases pay with
    | none => exact kw _ _ hjl
    | some slabs => exact kf _ (ks slabs _ (kw _ _ hjl))
  refine ⟨fun hf => ?_, fun hf => ?_⟩
  · have hnt : (payRun (memory len) calls cs pay).st ≠ .threw := by
      rw [hlen] at hf
      have h1 := jrun_takes ht calls cs (by omega)
      have hjd : (jrun (memory len) calls cs).st = .done := by
        cases hs : (jrun (memory len) calls cs).st with
        | done => rfl
        | threw => exact absurd hs h1
        | stopped => exact absurd hs hj.1
      unfold payRun
      dsimp only
      rw [padLoop_whole hd (padLen_pos _), hjt.all hjd]
      have h2 : ((jrun (memory len) calls cs).write (memory len) (padText (Payload.padLen (text cs).length))).1.st ≠ .threw :=
        write_takes ht (by rw [hjt.all hjd, padText_length]; omega) h1
      cases pay with
      | none => exact h2
      | some slabs =>
        have h3 := slabs_takes ht slabs _ (by
          rw [(write_got _ _ _).1, hjt.all hjd, List.length_append, List.length_take, padText_length]
          have e : ((some slabs).getD []) = slabs := rfl
          rw [e] at hf
          omega) h2
        show (Sink.flush _ _).st ≠ _
        unfold Sink.flush
        split
        · nofun
        · next h _ => rw [h]; nofun
        · exact h3
    have hdone : (payRun (memory len) calls cs pay).st = .done := by
      cases hs : (payRun (memory len) calls cs pay).st with
      | done => rfl
      | threw => exact absurd hs hnt
      | stopped => exact absurd hs hns
    exact ⟨hdone, hw.2 hdone⟩
  · refine ⟨?_, hle, hw.1⟩
    cases hs : (payRun (memory len) calls cs pay).st with
    | done => rw [hw.2 hs] at hle; omega
    | threw => rfl
    | stopped => exact absurd hs hns

/-- C126.  `payDoc` is what `SerializeWithPayload` writes to an output that works (C44), with the pieces `cs` the emitter
makes of the header. -/
theorem payload_document {num : Bytes → Option UInt64} {ff : FloatFmt} {c : Cfg} {w : Nat → Nat} {o : Payload.Opts} {m m' : Mach}
    {v : Val} (hb : m.buf = []) (ho : m.out = []) (hw : ∀ i, 32 ≤ w i) (h : Payload.serializeTo num ff c w o m v = .ok m') :
    ∃ n calls cs st, Payload.payloadCalls num n v (some o.lengthPath) (some o.dataPath) = .ok calls ∧
      emitOps ff c [] (calls.flatMap Payload.jsonOps) = .ok (cs, st) ∧
      ∀ slabs : List Bytes, slabs.flatten = Payload.payloadBytes v o → m'.out = payDoc (text cs) (some slabs) := by
  obtain ⟨-, n, calls, cs, st, m1, -, h1, h2, h3, h4⟩ := Payload.serializeTo_eq hb h
  refine ⟨n, calls, cs, st, h1, h2, fun slabs hsl => ?_⟩
  rw [ho, List.nil_append] at h3
  have hle : Payload.padLen m1.out.length ≤ 32 := by unfold Payload.padLen; omega
  rw [h4, Payload.writePad_whole _ _ _ (padLen_pos _) (Nat.le_trans hle (hw _)), h3]
  simp [payDoc, padText, hsl]

/-- A header of two bytes and a payload of three: 2 + 29 line feeds + NUL + 3 bytes. -/
example : payDoc [123, 125] (some [[1, 2], [3]]) = [123, 125] ++ List.replicate 29 10 ++ [0, 1, 2, 3] ∧
    (payDoc [123, 125] (some [[1, 2], [3]])).length = 35 ∧ Decides (memory 35) := by
  refine ⟨by decide, by decide, fun l g s n => ?_⟩
  simp only [memory]
  split
  · exact .inl rfl
  · exact .inr ⟨n, rfl⟩

end Verif.Sink
