import Verif.Sink.Model
import Verif.Json.EmitProps
/-!
# C115: when an output fails, what has been written is a beginning of the document, and who notices

`text cs` is the document: the bytes of the pieces the emitter asks for (C03).  `a <+: b`: `a` is a beginning of `b`.
-/

namespace Verif.Sink
open Verif JsonEmit

/-! ## The loop -/

theorem write_over {d : Dev} {s : Sink} {b : Bytes} (h : s.st ≠ .done) : s.write d b = (s, 0) := by
  unfold Sink.write
  split
  · next h1 _ => exact absurd h1 h
  · next h1 _ => exact absurd h1 h
  · rfl

theorem flush_over {d : Dev} {s : Sink} (h : s.st ≠ .done) : s.flush d = s := by
  unfold Sink.flush
  split
  · next h1 _ => exact absurd h1 h
  · next h1 _ => exact absurd h1 h
  · rfl

theorem flush_got (d : Dev) (s : Sink) : (s.flush d).got = s.got ∧ ((s.flush d).st = .done → s.st = .done) := by
  unfold Sink.flush
  split
  · next h _ => exact ⟨rfl, nofun⟩
  · next h _ => exact ⟨rfl, fun _ => h⟩
  · exact ⟨rfl, id⟩

/-- What one call takes is a beginning of what it is offered. -/
theorem write_got (d : Dev) (s : Sink) (b : Bytes) :
    (s.write d b).1.got = s.got ++ b.take (s.write d b).2 ∧ ((s.write d b).1.st = .done → s.st = .done) := by
  unfold Sink.write
  split
  · next h _ => exact ⟨by simp, nofun⟩
  · next h _ =>
    split
    · exact ⟨by simp, nofun⟩
    · next n k _ =>
      refine ⟨?_, fun _ => h⟩
      dsimp only
      rw [show b.take (min n b.length) = b.take n from by
        rcases Nat.le_total n b.length with h | h
        · rw [Nat.min_eq_left h]
        · rw [Nat.min_eq_right h, List.take_of_length_le h, List.take_of_length_le (Nat.le_refl _)]]
  · exact ⟨by simp, id⟩

theorem writeLoop_got (d : Dev) (cap : Nat) (s : Sink) (b : Bytes) :
    s.got <+: (writeLoop d cap s b).got ∧ (writeLoop d cap s b).got <+: s.got ++ b ∧
    ((writeLoop d cap s b).st = .done → s.st = .done ∧ (writeLoop d cap s b).got = s.got ++ b) := by
  induction s, b using writeLoop.induct d cap with
  | case1 s b h =>
    have : b = [] := by simpa using h
    subst this
    rw [writeLoop]
    simp
  | case2 s b h hst ih =>
    rw [writeLoop]
    simp only [h, Bool.false_eq_true, if_false]
    have hw := write_got d s (b.take cap)
    have hp : (s.write d (b.take cap)).2 ≤ (b.take cap).length := by
      unfold Sink.write
      split
      · exact Nat.zero_le _
      · split
        · exact Nat.zero_le _
        · exact Nat.min_le_right _ _
      · exact Nat.zero_le _
    have ht : (b.take cap).take (s.write d (b.take cap)).2 = b.take (s.write d (b.take cap)).2 := by
      rw [List.take_take]
      congr 1
      rw [List.length_take] at hp
      omega
    split
    · next hst' =>
      rw [hw.1, ht] at ih
      have e : s.got ++ b.take (s.write d (b.take cap)).2 ++ b.drop (s.write d (b.take cap)).2 = s.got ++ b := by
        rw [List.append_assoc, List.take_append_drop]
      rw [e] at ih
      refine ⟨(List.prefix_append _ _).trans ih.1, ih.2.1, fun hd => ⟨hw.2 hst, (ih.2.2 hd).2⟩⟩
    · next hn => exact absurd hst (by simpa using hn)
  | case3 s b h hst =>
    rw [writeLoop]
    simp only [h, Bool.false_eq_true, if_false]
    have hw := write_got d s (b.take cap)
    refine ⟨by rw [hw.1]; exact List.prefix_append _ _, ?_, fun hd => (hst hd).elim⟩
    rw [hw.1]
    exact (List.prefix_append_right_inj _).mpr ((List.take_prefix _ _).trans (List.take_prefix _ _))

/-! ## The emitter -/

/-- What is known when the pieces with text `T` have been asked for. -/
structure Inv (m : JMach) (T : Bytes) : Prop where
  beginning : m.sink.got <+: T
  all : m.sink.st = .done → m.sink.got ++ m.buf = T

theorem jflush_inv {d : Dev} {m : JMach} {T : Bytes} (h : Inv m T) : Inv (jflush d m) T ∧ (jflush d m).buf = [] := by
  have hl := writeLoop_got d m.buf.length m.sink m.buf
  have hf := flush_got d (writeLoop d m.buf.length m.sink m.buf)
  refine ⟨⟨?_, fun hd => ?_⟩, rfl⟩
  · simp only [jflush]
    rw [hf.1]
    by_cases hs : m.sink.st = .done
    · rw [← h.all hs]; exact hl.2.1
    · have : writeLoop d m.buf.length m.sink m.buf = m.sink := by
        rw [writeLoop]
        split
        · rfl
        · split
          · next hd => rw [write_over hs] at hd; exact absurd hd hs
          · rw [write_over hs]
      rw [this]
      exact h.beginning
  · simp only [jflush] at hd ⊢
    have h2 := hl.2.2 (hf.2 hd)
    rw [hf.1, h2.2, List.append_nil, h.all h2.1]

theorem loop_inv {d : Dev} {m : JMach} {T b : Bytes} (h : Inv m T) (hb : m.buf = []) (cap : Nat) :
    Inv { m with sink := writeLoop d cap m.sink b } (T ++ b) := by
  have hl := writeLoop_got d cap m.sink b
  refine ⟨?_, fun hd => ?_⟩
  · by_cases hs : m.sink.st = .done
    · have := h.all hs
      rw [hb, List.append_nil] at this
      rw [← this]
      exact hl.2.1
    · have : writeLoop d cap m.sink b = m.sink := by
        rw [writeLoop]
        split
        · rfl
        · split
          · next hd => rw [write_over hs] at hd; exact absurd hd hs
          · rw [write_over hs]
      dsimp only
      rw [this]
      exact h.beginning.trans (List.prefix_append _ _)
  · have h2 := hl.2.2 hd
    have := h.all h2.1
    rw [hb, List.append_nil] at this
    dsimp only
    rw [h2.2, hb, List.append_nil, this]

theorem store_inv {m : JMach} {T : Bytes} (b : Bytes) (h : Inv m T) : Inv { m with buf := m.buf ++ b } (T ++ b) :=
  ⟨h.beginning.trans (List.prefix_append _ _), fun hd => by
    dsimp only at hd ⊢
    rw [← List.append_assoc, h.all hd]⟩

theorem jchunk_inv {d : Dev} {m : JMach} {T : Bytes} (h : Inv m T) (c : Chunk) : Inv (jchunk d m c) (T ++ c.text) := by
  have small : ∀ b : Bytes, Inv { (if b.length + m.buf.length > 512 then jflush d m else m) with
      buf := (if b.length + m.buf.length > 512 then jflush d m else m).buf ++ b } (T ++ b) := by
    intro b
    split
    · exact store_inv b (jflush_inv h).1
    · exact store_inv b h
  cases c with
  | flush => rw [Chunk.text, List.append_nil]; exact (jflush_inv h).1
  | raw b =>
    simp only [jchunk, Chunk.text]
    split
    · exact loop_inv (jflush_inv h).1 rfl _
    · exact small b
  | spaces n =>
    simp only [jchunk, Chunk.text]
    split
    · exact loop_inv (jflush_inv h).1 rfl _
    · have := small (List.replicate n 32)
      rw [List.length_replicate] at this
      exact this

theorem fold_inv {d : Dev} (cs : List Chunk) : ∀ (m : JMach) (T : Bytes), Inv m T → Inv (cs.foldl (jchunk d) m) (T ++ text cs) := by
  induction cs with
  | nil => intro m T h; simpa using h
  | cons c cs ih =>
    intro m T h
    rw [List.foldl_cons, text_cons, ← List.append_assoc]
    exact ih _ _ (jchunk_inv h c)

theorem jrun_inv (d : Dev) (calls : Nat) (cs : List Chunk) : Inv ⟨[], jrun d calls cs⟩ (text cs) := by
  have h := fold_inv (d := d) cs ⟨[], .new calls⟩ [] ⟨List.prefix_rfl, fun _ => rfl⟩
  exact (jflush_inv h).1

/-- C115.  Whatever the output does and whenever the program is stopped, what the output has taken is a beginning of the document. -/
theorem json_beginning (d : Dev) (calls : Nat) (cs : List Chunk) : (jrun d calls cs).got <+: text cs := (jrun_inv d calls cs).beginning

/-- C115.  The same for what is safe. -/
theorem json_file_beginning (d : Dev) (calls : Nat) (cs : List Chunk) : (jrun d calls cs).file <+: text cs :=
  (List.take_prefix _ _).trans (json_beginning d calls cs)

/-- C115.  If emitting and closing returns, the output has taken the whole document, whatever it did in between. -/
theorem json_all_taken (d : Dev) (calls : Nat) (cs : List Chunk) (h : (jrun d calls cs).st = .done) : (jrun d calls cs).got = text cs := by
  have := (jrun_inv d calls cs).all h
  rwa [List.append_nil] at this

/-- C115 for `Serialize` of a value: then the output has taken what it would have with an output that always works. -/
theorem serialize_all_taken (ff : FloatFmt) (c : Cfg) (w : Nat → Nat) (v : Val) (cs : List Chunk) (st : List ES)
    (he : emitOps ff c [] (opsOf v) = .ok (cs, st)) (d : Dev) (calls : Nat) (h : (jrun d calls cs).st = .done) :
    serialize ff c w v = .ok (jrun d calls cs).got := by
  rw [serialize, emitter_output_integrity, he, json_all_taken d calls cs h]
  rfl

/-! ## Outputs that fail -/

/-- What holds of an output after every call holds in the end. -/
theorem writeLoop_keeps {d : Dev} (I : Sink → Prop) (hw : ∀ s b, I s → I (s.write d b).1) (cap : Nat) (s : Sink) (b : Bytes)
    (h : I s) : I (writeLoop d cap s b) := by
  induction s, b using writeLoop.induct d cap with
  | case1 s b h1 => rw [writeLoop, if_pos h1]; exact h
  | case2 s b h1 hst ih =>
    rw [writeLoop, if_neg h1]
    split
    · exact ih (hw _ _ h)
    · exact hw _ _ h
  | case3 s b h1 hst =>
    rw [writeLoop, if_neg h1]
    split
    · next hd => exact absurd hd hst
    · exact hw _ _ h

theorem jrun_keeps {d : Dev} (I : Sink → Prop) (hw : ∀ s b, I s → I (s.write d b).1) (hf : ∀ s, I s → I (s.flush d)) (calls : Nat)
    (h : I (.new calls)) (cs : List Chunk) : I (jrun d calls cs) := by
  have fl : ∀ m : JMach, I m.sink → I (jflush d m).sink := fun m h => hf _ (writeLoop_keeps I hw _ _ _ h)
  have st : ∀ (m : JMach) (c : Chunk), I m.sink → I (jchunk d m c).sink := by
    intro m c h
    cases c with
    | flush => exact fl m h
    | raw b =>
      simp only [jchunk]
      split
      · exact writeLoop_keeps I hw _ _ _ (fl m h)
      · dsimp only
        split
        · exact fl m h
        · exact h
    | spaces n =>
      simp only [jchunk]
      split
      · exact writeLoop_keeps I hw _ _ _ (fl m h)
      · dsimp only
        split
        · exact fl m h
        · exact h
  have : ∀ (cs : List Chunk) (m : JMach), I m.sink → I (cs.foldl (jchunk d) m).sink := by
    intro cs
    induction cs with
    | nil => intro m h; exact h
    | cons c cs ih => intro m h; exact ih _ (st m c h)
  exact fl _ (this cs _ h)

/-- Refuted: emitting comes to an end.  On an output that takes no more after some bytes (a full disk with an unbuffered stream) it never
returns and never throws if the document is longer. -/
theorem json_ends_false (room : Nat) (cs : List Chunk) (h : room < (text cs).length) (calls : Nat) :
    (jrun (fullStream room) calls cs).st = .stopped := by
  have hi := jrun_keeps (d := fullStream room) (fun s => s.got.length ≤ room ∧ s.st ≠ .threw) (by
    intro s b ⟨h1, h2⟩
    unfold Sink.write
    split
    · exact ⟨h1, nofun⟩
    · simp only [fullStream]
      exact ⟨by simp; omega, nofun⟩
    · exact ⟨h1, h2⟩) (by
    intro s ⟨h1, h2⟩
    unfold Sink.flush
    split
    · exact ⟨h1, nofun⟩
    · exact ⟨h1, h2⟩
    · exact ⟨h1, h2⟩) calls ⟨Nat.zero_le _, nofun⟩ cs
  cases hs : (jrun (fullStream room) calls cs).st with
  | done =>
    have := hi.1
    rw [json_all_taken _ _ _ hs] at this
    omega
  | threw => exact absurd hs hi.2
  | stopped => rfl

/-- An output that takes all it is offered or throws. -/
def Decides (d : Dev) : Prop := ∀ l g s n, d.write l g s n = none ∨ ∃ k, d.write l g s n = some (n, k)

/-- An output that takes everything up to a length. -/
def Takes (d : Dev) (lim : Nat) : Prop := ∀ l g s n, g + n ≤ lim → ∃ k, d.write l g s n = some (n, k)

theorem writeLoop_decides {d : Dev} (hd : Decides d) (cap : Nat) (hc : 0 < cap) (s : Sink) (b : Bytes) (R : Nat)
    (hl : s.st = .done → b.length + R ≤ s.left) (hs : s.st ≠ .stopped) :
    (writeLoop d cap s b).st ≠ .stopped ∧ ((writeLoop d cap s b).st = .done → R ≤ (writeLoop d cap s b).left) := by
  induction s, b using writeLoop.induct d cap with
  | case1 s b h1 =>
    rw [writeLoop, if_pos h1]
    exact ⟨hs, fun h => by have := hl h; omega⟩
  | case2 s b h1 hst ih =>
    rw [writeLoop, if_neg h1]
    have hdone := (write_got d s (b.take cap)).2 hst
    have hbl : 0 < b.length := by
      cases b with
      | nil => exact absurd rfl h1
      | cons x xs => simp
    have hleft := hl hdone
    have key : (s.write d (b.take cap)).2 = min cap b.length ∧ (s.write d (b.take cap)).1.left + 1 = s.left := by
      revert hst
      unfold Sink.write
      split
      · intro h; cases h
      · next l _ hl' =>
        rcases hd l s.got.length s.safe (b.take cap).length with e | ⟨k, e⟩
        · rw [e]; intro h; cases h
        · rw [e]; intro _; exact ⟨by simp, hl'.symm⟩
      · next h1 h2 =>
        intro _
        exfalso
        cases hq : s.left with
        | zero => omega
        | succ l => exact h2 l hdone hq
    split
    · exact ih (fun _ => by rw [key.1, List.length_drop]; omega) (by rw [hst]; nofun)
    · next hn => exact absurd hst (by simpa using hn)
  | case3 s b h1 hst =>
    rw [writeLoop, if_neg h1]
    have hbl : 0 < b.length := by
      cases b with
      | nil => exact absurd rfl h1
      | cons x xs => simp
    have hns : (s.write d (b.take cap)).1.st ≠ .stopped := by
      by_cases hdn : s.st = .done
      · have := hl hdn
        unfold Sink.write
        split
        · omega
        · split <;> nofun
        · exact hs
      · rw [write_over hdn]; exact hs
    split
    · next h => exact absurd h hst
    · exact ⟨hns, fun h => absurd h hst⟩

theorem flush_decides {d : Dev} {s : Sink} {R : Nat} (hl : s.st = .done → R + 1 ≤ s.left) (hs : s.st ≠ .stopped) :
    (s.flush d).st ≠ .stopped ∧ ((s.flush d).st = .done → R ≤ (s.flush d).left) := by
  unfold Sink.flush
  split
  · next h h2 => have := hl h; omega
  · next h h2 => exact ⟨by rw [h]; nofun, fun _ => by have := hl h; dsimp only; omega⟩
  · exact ⟨hs, fun h => by have := hl h; omega⟩

/-- How many calls may still be needed for what is in the buffer. -/
def Enough (m : JMach) (R : Nat) : Prop := m.sink.st ≠ .stopped ∧ (m.sink.st = .done → m.buf.length + R ≤ m.sink.left)

theorem jflush_decides {d : Dev} (hd : Decides d) {m : JMach} {R : Nat} (h : Enough m (R + 1)) : Enough (jflush d m) R := by
  have h1 : (writeLoop d m.buf.length m.sink m.buf).st ≠ .stopped ∧
      ((writeLoop d m.buf.length m.sink m.buf).st = .done → R + 1 ≤ (writeLoop d m.buf.length m.sink m.buf).left) := by
    cases hb : m.buf with
    | nil =>
      rw [writeLoop]
      simp only [List.isEmpty_nil, if_true]
      exact ⟨h.1, fun hd => by have := h.2 hd; omega⟩
    | cons x xs => exact writeLoop_decides hd _ (by simp) _ _ _ (by rw [← hb]; exact h.2) h.1
  have h2 := flush_decides (d := d) h1.2 h1.1
  exact ⟨h2.1, fun hd => by have := h2.2 hd; simp only [jflush] at this ⊢; simpa using this⟩

theorem jchunk_decides {d : Dev} (hd : Decides d) {m : JMach} {R : Nat} (c : Chunk) (h : Enough m (c.text.length + (R + 1))) :
    Enough (jchunk d m c) R := by
  have weaken : ∀ {m : JMach} {A B : Nat}, Enough m A → B ≤ A → Enough m B := fun h hle => ⟨h.1, fun hd => by have := h.2 hd; omega⟩
  have big : ∀ (b : Bytes) (cap : Nat), 0 < cap → Enough m (b.length + (R + 1)) →
      Enough { jflush d m with sink := writeLoop d cap (jflush d m).sink b } R := by
    intro b cap hc h
    have hf := jflush_decides hd (show Enough m ((b.length + R) + 1) from weaken h (by omega))
    have := writeLoop_decides hd cap hc (jflush d m).sink b R (fun hd => by have := hf.2 hd; omega) hf.1
    exact ⟨this.1, fun hd => by have := this.2 hd; simpa [jflush] using this⟩
  have small : ∀ b : Bytes, Enough m (b.length + (R + 1)) → Enough { (if b.length + m.buf.length > 512 then jflush d m else m) with
      buf := (if b.length + m.buf.length > 512 then jflush d m else m).buf ++ b } R := by
    intro b h
    have app : ∀ {m : JMach}, Enough m (b.length + R) → Enough { m with buf := m.buf ++ b } R := fun h =>
      ⟨h.1, fun hd => by have := h.2 hd; simp only [List.length_append]; omega⟩
    split
    · exact app (jflush_decides hd (weaken h (by omega)))
    · exact app (weaken h (by omega))
  cases c with
  | flush => exact jflush_decides hd (weaken h (by omega))
  | raw b =>
    simp only [jchunk, Chunk.text] at h ⊢
    split
    · exact big b _ (by omega) h
    · exact small b h
  | spaces n =>
    simp only [jchunk, Chunk.text] at h ⊢
    split
    · exact big _ _ (by decide) h
    · have := small (List.replicate n 32) h
      rw [List.length_replicate] at this
      exact this

theorem jrun_decides {d : Dev} (hd : Decides d) (calls : Nat) (cs : List Chunk) (h : (text cs).length + cs.length + 1 ≤ calls) :
    (jrun d calls cs).st ≠ .stopped := by
  have fold : ∀ (cs : List Chunk) (m : JMach) (R : Nat), Enough m ((text cs).length + cs.length + R) → Enough (cs.foldl (jchunk d) m) R := by
    intro cs
    induction cs with
    | nil => intro m R h; simpa using h
    | cons c cs ih =>
      intro m R h
      refine ih _ R (jchunk_decides hd c ?_)
      rw [text_cons] at h
      simp only [List.length_append, List.length_cons] at h
      have e : c.text.length + ((text cs).length + cs.length + R + 1) = c.text.length + (text cs).length + (cs.length + 1) + R := by omega
      rw [e]
      exact h
  exact (jflush_decides hd (R := 0) (fold cs ⟨[], .new calls⟩ 1 ⟨nofun, fun _ => by simp [Sink.new]; omega⟩)).1

theorem writeLoop_takes {d : Dev} {lim : Nat} (hd : Takes d lim) (cap : Nat) (s : Sink) (b : Bytes)
    (hl : s.got.length + b.length ≤ lim) (hs : s.st ≠ .threw) : (writeLoop d cap s b).st ≠ .threw := by
  have one : ∀ (s : Sink) (b : Bytes), s.got.length + b.length ≤ lim → s.st ≠ .threw → (s.write d (b.take cap)).1.st ≠ .threw := by
    intro s b hl hs
    unfold Sink.write
    split
    · nofun
    · next l _ _ =>
      obtain ⟨k, e⟩ := hd l s.got.length s.safe (b.take cap).length (by rw [List.length_take]; omega)
      rw [e]; nofun
    · exact hs
  induction s, b using writeLoop.induct d cap with
  | case1 s b h1 => rw [writeLoop, if_pos h1]; exact hs
  | case2 s b h1 hst ih =>
    rw [writeLoop, if_neg h1]
    split
    · refine ih ?_ (by rw [hst]; nofun)
      rw [(write_got d s (b.take cap)).1]
      have hle : (s.write d (b.take cap)).2 ≤ b.length := by
        unfold Sink.write
        split
        · exact Nat.zero_le _
        · split
          · exact Nat.zero_le _
          · dsimp only; rw [List.length_take]; omega
        · exact Nat.zero_le _
      simp only [List.length_append, List.length_take, List.length_drop]
      omega
    · exact one s b hl hs
  | case3 s b h1 hst =>
    rw [writeLoop, if_neg h1]
    split
    · next h => exact absurd h hst
    · exact one s b hl hs

theorem jrun_takes {d : Dev} {lim : Nat} (hd : Takes d lim) (calls : Nat) (cs : List Chunk) (h : (text cs).length ≤ lim) :
    (jrun d calls cs).st ≠ .threw := by
  have fl : ∀ (m : JMach) (T : Bytes), Inv m T → T.length ≤ lim → m.sink.st ≠ .threw → (jflush d m).sink.st ≠ .threw := by
    intro m T hi hT hs
    have h1 : (writeLoop d m.buf.length m.sink m.buf).st ≠ .threw := by
      by_cases hdn : m.sink.st = .done
      · refine writeLoop_takes hd _ _ _ ?_ hs
        rw [← List.length_append, hi.all hdn]; exact hT
      · refine writeLoop_keeps (fun s => s.st ≠ .threw ∧ s.st ≠ .done) (fun s b h => ?_) _ _ _ ⟨hs, hdn⟩ |>.1
        rw [write_over h.2]; exact h
    simp only [jflush]
    unfold Sink.flush
    split
    · nofun
    · exact h1
    · exact h1
  have lp : ∀ (m : JMach) (T b : Bytes) (cap : Nat), Inv m T → m.buf = [] → (T ++ b).length ≤ lim → m.sink.st ≠ .threw →
      (writeLoop d cap m.sink b).st ≠ .threw := by
    intro m T b cap hi hb hT hs
    by_cases hdn : m.sink.st = .done
    · refine writeLoop_takes hd _ _ _ ?_ hs
      have := hi.all hdn
      rw [hb, List.append_nil] at this
      rw [this, ← List.length_append]; exact hT
    · refine writeLoop_keeps (fun s => s.st ≠ .threw ∧ s.st ≠ .done) (fun s b h => ?_) _ _ _ ⟨hs, hdn⟩ |>.1
      rw [write_over h.2]; exact h
  have step : ∀ (m : JMach) (T : Bytes) (c : Chunk), Inv m T → (T ++ c.text).length ≤ lim → m.sink.st ≠ .threw → (jchunk d m c).sink.st ≠ .threw := by
    intro m T c hi hT hs
    have hT' : T.length ≤ lim := by rw [List.length_append] at hT; omega
    cases c with
    | flush => exact fl m T hi hT' hs
    | raw b =>
      simp only [jchunk]
      split
      · exact lp _ T b _ (jflush_inv hi).1 rfl hT (fl m T hi hT' hs)
      · dsimp only
        split
        · exact fl m T hi hT' hs
        · exact hs
    | spaces n =>
      simp only [jchunk]
      split
      · exact lp _ T _ _ (jflush_inv hi).1 rfl hT (fl m T hi hT' hs)
      · dsimp only
        split
        · exact fl m T hi hT' hs
        · exact hs
  have fold : ∀ (cs : List Chunk) (m : JMach) (T : Bytes), Inv m T → (T ++ text cs).length ≤ lim → m.sink.st ≠ .threw →
      (cs.foldl (jchunk d) m).sink.st ≠ .threw := by
    intro cs
    induction cs with
    | nil => intro m T _ _ hs; exact hs
    | cons c cs ih =>
      intro m T hi hT hs
      rw [text_cons, ← List.append_assoc] at hT
      refine ih _ (T ++ c.text) (jchunk_inv hi c) hT (step m T c hi ?_ hs)
      rw [List.length_append] at hT; omega
  have i0 : Inv ⟨[], .new calls⟩ [] := ⟨List.prefix_rfl, fun _ => rfl⟩
  exact fl _ (text cs) (by simpa using fold_inv cs _ _ i0) h (fold cs _ [] i0 (by simpa using h) nofun)

/-- C115.  Into a block of memory: if the document fits, emitting returns and it is there; if not, it throws, and nothing is written
beyond the block.  The number of calls needed is bounded. -/
theorem json_memory (len : Nat) (cs : List Chunk) (calls : Nat) (h : (text cs).length + cs.length + 1 ≤ calls) :
    ((text cs).length ≤ len → (jrun (memory len) calls cs).st = .done ∧ (jrun (memory len) calls cs).got = text cs) ∧
    (len < (text cs).length → (jrun (memory len) calls cs).st = .threw ∧ (jrun (memory len) calls cs).got.length ≤ len) := by
  have hd : Decides (memory len) := by
    intro l g s n
    simp only [memory]
    split
    · exact .inl rfl
    · exact .inr ⟨n, rfl⟩
  have ht : Takes (memory len) len := by
    intro l g s n h
    exact ⟨n, by simp only [memory]; rw [if_neg (by omega)]⟩
  have hi := jrun_keeps (d := memory len) (fun s => s.got.length ≤ len) (by
    intro s b h
    unfold Sink.write
    split
    · exact h
    · simp only [memory]
      split
      · next h2 => split at h2 <;> exact h
      · next h2 =>
        split at h2
        · cases h2
        · cases h2; simp; omega
    · exact h) (by
    intro s h
    unfold Sink.flush
    split <;> exact h) calls (Nat.zero_le _) cs
  have hns := jrun_decides hd calls cs h
  refine ⟨fun hf => ?_, fun hf => ?_⟩
  · have hnt := jrun_takes ht calls cs hf
    have hdone : (jrun (memory len) calls cs).st = .done := by
      cases hs : (jrun (memory len) calls cs).st with
      | done => rfl
      | threw => exact absurd hs hnt
      | stopped => exact absurd hs hns
    exact ⟨hdone, json_all_taken _ _ _ hdone⟩
  · refine ⟨?_, hi⟩
    cases hs : (jrun (memory len) calls cs).st with
    | done => have := hi; rw [json_all_taken _ _ _ hs] at this; omega
    | threw => rfl
    | stopped => exact absurd hs hns

/-- C115, as far as it is true of files: if what has been taken becomes safe when flushed, then after emitting and closing the document is
safe. -/
theorem json_file_partial (d : Dev) (hf : ∀ l g s, g - s ≤ d.flush l g s) (calls : Nat) (cs : List Chunk)
    (h : (jrun d calls cs).st = .done) : (jrun d calls cs).file = text cs := by
  have hg := json_all_taken d calls cs h
  rw [Sink.file, List.take_of_length_le, hg]
  unfold jrun jflush at h ⊢
  dsimp only at h ⊢
  unfold Sink.flush at h ⊢
  split at h
  · cases h
  · dsimp only
    have := hf ‹Nat› (writeLoop d (cs.foldl (jchunk d) ⟨[], .new calls⟩).buf.length (cs.foldl (jchunk d) ⟨[], .new calls⟩).sink
      (cs.foldl (jchunk d) ⟨[], .new calls⟩).buf).got.length (writeLoop d (cs.foldl (jchunk d) ⟨[], .new calls⟩).buf.length
      (cs.foldl (jchunk d) ⟨[], .new calls⟩).sink (cs.foldl (jchunk d) ⟨[], .new calls⟩).buf).safe
    omega
  · next h1 h2 =>
    exfalso
    cases hq : (writeLoop d (cs.foldl (jchunk d) ⟨[], .new calls⟩).buf.length (cs.foldl (jchunk d) ⟨[], .new calls⟩).sink
      (cs.foldl (jchunk d) ⟨[], .new calls⟩).buf).left with
    | zero => exact h1 h hq
    | succ l => exact h2 l h hq

/-- Refuted: after `Serialize` to a file returns, the document is in the file.  On a full disk it returns and only the bytes there was
room for are in the file. -/
theorem json_disk_false (room : Nat) (cs : List Chunk) (calls : Nat) (h : (text cs).length + cs.length + 1 ≤ calls) :
    (jrun (fullDisk room) calls cs).st = .done ∧ (jrun (fullDisk room) calls cs).file = (text cs).take room := by
  have hd : Decides (fullDisk room) := fun l g s n => .inr ⟨0, rfl⟩
  have hns := jrun_decides hd calls cs h
  have hnt := jrun_takes (d := fullDisk room) (lim := (text cs).length) (fun l g s n _ => ⟨0, rfl⟩) calls cs (Nat.le_refl _)
  have hdone : (jrun (fullDisk room) calls cs).st = .done := by
    cases hs : (jrun (fullDisk room) calls cs).st with
    | done => rfl
    | threw => exact absurd hs hnt
    | stopped => exact absurd hs hns
  refine ⟨hdone, ?_⟩
  have keepW : ∀ (s : Sink) (b : Bytes), s.safe ≤ min s.got.length room → (s.write (fullDisk room) b).1.safe ≤ min (s.write (fullDisk room) b).1.got.length room := by
    intro s b h
    unfold Sink.write
    split
    · exact h
    · simp only [fullDisk]; simp; omega
    · exact h
  have keepF : ∀ s : Sink, s.safe ≤ min s.got.length room → (s.flush (fullDisk room)).safe ≤ min (s.flush (fullDisk room)).got.length room := by
    intro s h
    unfold Sink.flush
    split
    · exact h
    · simp only [fullDisk]; omega
    · exact h
  have last : ∀ s : Sink, s.safe ≤ min s.got.length room → (s.flush (fullDisk room)).st = .done →
      (s.flush (fullDisk room)).safe = min (s.flush (fullDisk room)).got.length room := by
    intro s h hs
    unfold Sink.flush at hs ⊢
    split at hs
    · cases hs
    · simp only [fullDisk]; omega
    · next h1 h2 =>
      exfalso
      cases hq : s.left with
      | zero => exact h1 hs hq
      | succ l => exact h2 l hs hq
  have hi : (cs.foldl (jchunk (fullDisk room)) ⟨[], .new calls⟩).sink.safe ≤ min (cs.foldl (jchunk (fullDisk room)) ⟨[], .new calls⟩).sink.got.length room := by
    have fl : ∀ m : JMach, m.sink.safe ≤ min m.sink.got.length room → (jflush (fullDisk room) m).sink.safe ≤ min (jflush (fullDisk room) m).sink.got.length room :=
      fun m h => keepF _ (writeLoop_keeps (fun s => s.safe ≤ min s.got.length room) keepW _ _ _ h)
    have st : ∀ (m : JMach) (c : Chunk), m.sink.safe ≤ min m.sink.got.length room →
        (jchunk (fullDisk room) m c).sink.safe ≤ min (jchunk (fullDisk room) m c).sink.got.length room := by
      intro m c h
      cases c with
      | flush => exact fl m h
      | raw b =>
        simp only [jchunk]
        split
        · exact writeLoop_keeps (fun s => s.safe ≤ min s.got.length room) keepW _ _ _ (fl m h)
        · dsimp only
          split
          · exact fl m h
          · exact h
      | spaces n =>
        simp only [jchunk]
        split
        · exact writeLoop_keeps (fun s => s.safe ≤ min s.got.length room) keepW _ _ _ (fl m h)
        · dsimp only
          split
          · exact fl m h
          · exact h
    have : ∀ (cs : List Chunk) (m : JMach), m.sink.safe ≤ min m.sink.got.length room →
        (cs.foldl (jchunk (fullDisk room)) m).sink.safe ≤ min (cs.foldl (jchunk (fullDisk room)) m).sink.got.length room := by
      intro cs
      induction cs with
      | nil => intro m h; exact h
      | cons c cs ih => intro m h; exact ih _ (st m c h)
    exact this cs _ (Nat.zero_le _)
  have hsafe : (jrun (fullDisk room) calls cs).safe = min (jrun (fullDisk room) calls cs).got.length room :=
    last _ (writeLoop_keeps (fun s => s.safe ≤ min s.got.length room) keepW _ _ _ hi) hdone
  have hg := json_all_taken _ _ _ hdone
  rw [Sink.file, hsafe, hg]
  rcases Nat.le_total (text cs).length room with h | h
  · rw [Nat.min_eq_left h, List.take_of_length_le (Nat.le_refl _), List.take_of_length_le h]
  · rw [Nat.min_eq_right h]

/-- The list [1, "a"] written with a program stopped after the fourth call, and on a disk with room for three bytes. -/
example :
    let cs : List Chunk := [.raw [91], .raw [49], .raw [44], .raw [34], .raw [97], .raw [34], .raw [93], .flush]
    let slow : Dev := ⟨fun _ _ _ _ => some (1, 1), fun _ _ _ => 0⟩
    (jrun slow 4 cs).st = .stopped ∧ (jrun slow 4 cs).got = [91, 49, 44, 34] ∧
    (jrun slow 100 cs).st = .done ∧ (jrun slow 100 cs).file = [91, 49, 44, 34, 97, 34, 93] ∧
    (jrun (fullDisk 3) 100 cs).st = .done ∧ (jrun (fullDisk 3) 100 cs).file = [91, 49, 44] ∧
    (jrun (fullStream 3) 100 cs).st = .stopped ∧ (jrun (memory 3) 100 cs).st = .threw := by decide +kernel

/-! ## Writing without looking at the answer -/

theorem once_fold_got {d : Dev} (hd : ∀ l g s n, ∃ n' k, d.write l g s n = some (n', k) ∧ n ≤ n') (bs : List Bytes) : ∀ s : Sink,
    (bs.foldl (fun (s : Sink) b => (s.write d b).1) s).st = .done →
    s.st = .done ∧ (bs.foldl (fun (s : Sink) b => (s.write d b).1) s).got = s.got ++ bs.flatten := by
  induction bs with
  | nil => intro s h; exact ⟨h, by simp⟩
  | cons b bs ih =>
    intro s h
    rw [List.foldl_cons] at h ⊢
    obtain ⟨h1, h2⟩ := ih _ h
    have h3 := (write_got d s b).2 h1
    refine ⟨h3, ?_⟩
    rw [h2, List.flatten_cons, ← List.append_assoc]
    congr 1
    revert h1
    unfold Sink.write
    split
    · intro h; cases h
    · next l _ _ =>
      obtain ⟨n', k, e, hn⟩ := hd l s.got.length s.safe b.length
      rw [e]
      intro _
      dsimp only
      rw [List.take_of_length_le hn]
    · next q1 q2 =>
      intro _
      exfalso
      cases hq : s.left with
      | zero => exact q1 h3 hq
      | succ l => exact q2 l h3 hq

/-- C115 for MessagePack, as far as it is true: with an output that takes all it is offered, what it has taken in the end is everything. -/
theorem once_all_partial (d : Dev) (hd : ∀ l g s n, ∃ n' k, d.write l g s n = some (n', k) ∧ n ≤ n') (calls : Nat) (bs : List Bytes)
    (h : (onceRun d calls bs).st = .done) : (onceRun d calls bs).got = bs.flatten := by
  unfold onceRun at h ⊢
  have := once_fold_got hd bs (.new calls) ((flush_got _ _).2 h)
  rw [(flush_got _ _).1, this.2]
  rfl

/-- Refuted: a document that could not be written is noticed.  An output that takes no more after some bytes loses the rest, and
everything returns. -/
theorem once_lost_false (room : Nat) (bs : List Bytes) (calls : Nat) (h : bs.length + 1 ≤ calls) :
    (onceRun (fullStream room) calls bs).st = .done ∧ (onceRun (fullStream room) calls bs).got = bs.flatten.take room := by
  have key : ∀ (bs : List Bytes) (s : Sink), s.st = .done → bs.length + 1 ≤ s.left → s.got.length ≤ room →
      (bs.foldl (fun (s : Sink) b => (s.write (fullStream room) b).1) s).st = .done ∧
      1 ≤ (bs.foldl (fun (s : Sink) b => (s.write (fullStream room) b).1) s).left ∧
      (bs.foldl (fun (s : Sink) b => (s.write (fullStream room) b).1) s).got = (s.got ++ bs.flatten).take room := by
    intro bs
    induction bs with
    | nil =>
      intro s h1 h2 h3
      exact ⟨h1, by simpa using h2, by simp [List.take_of_length_le h3]⟩
    | cons b bs ih =>
      intro s h1 h2 h3
      obtain ⟨got, safe, left, st⟩ := s
      dsimp only at h1 h2 h3
      subst h1
      cases left with
      | zero => simp at h2
      | succ l =>
        rw [List.foldl_cons]
        have e : (Sink.write (fullStream room) ⟨got, safe, l + 1, .done⟩ b).1 =
            ⟨got ++ b.take (room - got.length), safe + min b.length (room - got.length), l, .done⟩ := by
          simp only [Sink.write, fullStream]
          congr 2
          rcases Nat.le_total b.length (room - got.length) with h | h
          · rw [Nat.min_eq_left h, List.take_of_length_le (Nat.le_refl _), List.take_of_length_le h]
          · rw [Nat.min_eq_right h]
        rw [e]
        obtain ⟨i1, i2, i3⟩ := ih ⟨got ++ b.take (room - got.length), safe + min b.length (room - got.length), l, .done⟩ rfl
          (by simp at h2 ⊢; omega) (by simp; omega)
        refine ⟨i1, i2, ?_⟩
        rw [i3]
        dsimp only
        rw [List.flatten_cons, ← List.append_assoc got b, List.take_append, List.take_append (l₁ := got ++ b), List.take_append (l₁ := got),
          List.take_append (l₁ := got), List.take_take, Nat.min_self]
        rcases Nat.le_total (got ++ b).length room with h | h
        · have hb : b.length ≤ room - got.length := by simp at h; omega
          rw [List.take_of_length_le hb]
        · have hz : room - (got ++ b).length = 0 := by omega
          have hz2 : room - (got ++ b.take (room - got.length)).length = 0 := by simp at h ⊢; omega
          rw [hz, hz2]
  obtain ⟨k1, k2, k3⟩ := key bs (.new calls) rfl h (Nat.zero_le _)
  unfold onceRun
  refine ⟨?_, by rw [(flush_got _ _).1, k3]; rfl⟩
  unfold Sink.flush
  split
  · omega
  · exact k1
  · exact k1

/-- Refuted: what an output has taken is a beginning of the document.  If one call takes nothing and a later one does again, there is a
hole: the list [1, 2] becomes a list announced with two elements that has only the second. -/
theorem once_hole_false : ∃ d : Dev, (onceRun d 9 [[0x92], [1], [2]]).st = .done ∧ (onceRun d 9 [[0x92], [1], [2]]).file = [0x92, 2] :=
  ⟨⟨fun l _ _ n => if l = 7 then some (0, 0) else some (n, n), fun _ _ _ => 0⟩, by decide +kernel⟩

end Verif.Sink
