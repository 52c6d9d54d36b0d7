import Verif.IO.Stream
/-!
# C28 Stream input delivers the stream; C29 Fixed memory output never writes outside its buffer
-/

namespace Verif.IO
open Verif

/-! ## Specification of C28 -/

/-- `Delivers rem avail trace`: `rem` is what has not been released of the stream, `avail` how much
of it has been given out.  Every request is answered by a beginning of `rem`, at least as long as
requested (and not empty), or by all of it; releasing takes bytes off the front, and is refused
exactly when more is released than was given out. -/
inductive Delivers : Bytes → Nat → List (Op × Res) → Prop
  | nil (rem : Bytes) (avail : Nat) : Delivers rem avail []
  | get {rem : Bytes} {avail n : Nat} {v : Bytes} {tr : List (Op × Res)} :
      v <+: rem → (max n 1 ≤ v.length ∨ v = rem) → avail ≤ v.length →
      Delivers rem v.length tr → Delivers rem avail ((.get n, .bytes v) :: tr)
  | releaseOk {rem : Bytes} {avail n : Nat} {tr : List (Op × Res)} :
      n ≤ avail → Delivers (rem.drop n) (avail - n) tr →
      Delivers rem avail ((.release n, .ok) :: tr)
  | releaseThrow {rem : Bytes} {avail n : Nat} {tr : List (Op × Res)} :
      avail < n → Delivers rem avail tr → Delivers rem avail ((.release n, .threw) :: tr)

/-- A `Read` that gives short answers only at the end of the stream (`fread`, `sgetn`). -/
def fullReads (n : Nat) (_ : Bytes) : Nat := n

/-! ## Proof -/

/-- The buffer holds the front of what has not been released. -/
structure Inv (M : Nat) (rem : Bytes) (s : SIn) : Prop where
  rem_eq : rem = s.view ++ s.rest
  fits : s.offset + s.num ≤ s.buf.length
  zero : s.num = 0 → s.offset = 0
  eof : s.eof = true → s.rest = []
  small : s.buf.length ≤ M
  pos : 0 < s.buf.length

theorem view_length {s : SIn} (h : s.offset + s.num ≤ s.buf.length) : s.view.length = s.num := by
  simp [SIn.view]; omega

theorem Inv.init {M n : Nat} (hn : 0 < n) (hM : n ≤ M) (content : Bytes) :
    Inv M content (SIn.init n content) := by
  constructor <;> simp [SIn.init, SIn.view, hn, hM]

theorem readMore_inv {M : Nat} {rem : Bytes} {s : SIn} (h : Inv M rem s)
    (h0 : s.buf.length - s.num - s.offset ≠ 0) : Inv M rem (readMore fullReads s) ∧
      ((readMore fullReads s).eof = false →
        (readMore fullReads s).offset + (readMore fullReads s).num = s.buf.length) ∧
      (readMore fullReads s).buf.length = s.buf.length ∧ (readMore fullReads s).offset = s.offset := by
  have hf := h.fits
  have hk : readCount fullReads (s.buf.length - s.num - s.offset) s.rest
      = min (s.buf.length - s.num - s.offset) s.rest.length := by simp [readCount, fullReads]
  have hlen : (readMore fullReads s).buf.length = s.buf.length := by
    simp only [readMore, List.length_append, List.length_take, List.length_drop, hk]; omega
  have hview : (readMore fullReads s).view = s.view ++ s.rest.take
      (min (s.buf.length - s.num - s.offset) s.rest.length) := by
    simp only [SIn.view, readMore, hk]
    rw [List.append_assoc, List.drop_append_of_le_length (by simp; omega), List.take_append,
      List.drop_take, show s.num + s.offset - s.offset = s.num by omega]
    have h1 : (List.take s.num (List.drop s.offset s.buf)).length = s.num := by simp; omega
    rw [List.take_of_length_le (by omega), h1,
      show s.num + min (s.buf.length - s.num - s.offset) s.rest.length - s.num
        = min (s.buf.length - s.num - s.offset) s.rest.length by omega,
      List.take_append_of_le_length (by simp),
      List.take_of_length_le (l := List.take _ s.rest) (by simp)]
  refine ⟨⟨?_, ?_, ?_, ?_, ?_, ?_⟩, ?_, hlen, rfl⟩
  · rw [hview, h.rem_eq]
    simp only [readMore, hk]
    rw [List.append_assoc, List.take_append_drop]
  · rw [hlen]; simp only [readMore, hk]; omega
  · intro hz
    simp only [readMore, hk] at hz ⊢
    exact h.zero (by omega)
  · intro he
    simp only [readMore, hk, decide_eq_true_eq] at he ⊢
    rw [List.drop_eq_nil_iff]; omega
  · rw [hlen]; exact h.small
  · rw [hlen]; exact h.pos
  · intro he
    simp only [readMore, hk, decide_eq_false_iff_not, Nat.not_lt] at he ⊢
    omega

/-- The loop ends with enough bytes or at the end of the stream. -/
theorem fill_inv {M : Nat} {rem : Bytes} {s : SIn} (h : Inv M rem s) (len : Nat)
    (hroom : len + s.offset ≤ s.buf.length) (he : s.eof = false) :
    ∃ s', fill fullReads len s = some s' ∧ Inv M rem s' ∧ s.num ≤ s'.num ∧
      (max len 1 ≤ s'.num ∨ s'.rest = []) := by
  rw [fill]
  by_cases hc : s.eof = false ∧ (s.num < len ∨ s.num = 0)
  · rw [if_pos hc]
    have h0 : s.buf.length - s.num - s.offset ≠ 0 := by
      have := h.pos
      rcases hc.2 with h1 | h1
      · omega
      · have := h.zero h1; omega
    rw [dif_neg h0]
    obtain ⟨h1, h2, h3, h4⟩ := readMore_inv h h0
    have hnum : s.num ≤ (readMore fullReads s).num := by simp only [readMore]; omega
    simp only
    split
    · next heof => exact ⟨_, rfl, h1, hnum, Or.inr (h1.eof heof)⟩
    · next heof =>
      simp only [Bool.not_eq_true] at heof
      have := h2 heof
      have hbig : max len 1 ≤ (readMore fullReads s).num := by omega
      refine ⟨readMore fullReads s, ?_, h1, hnum, Or.inl hbig⟩
      rw [fill, if_neg]
      omega
  · rw [if_neg hc]
    refine ⟨s, rfl, h, Nat.le_refl _, Or.inl ?_⟩
    simp only [he, true_and] at hc
    omega

theorem makeRoom_inv {M : Nat} {rem : Bytes} {s : SIn} (h : Inv M rem s) (len : Nat)
    (hlen : len ≤ M) (hM : 2 * M < 2 ^ 32) (hneed : ¬ (len ≤ s.num ∧ s.num > 0)) :
    Inv M rem (makeRoom len s) ∧ len + (makeRoom len s).offset ≤ (makeRoom len s).buf.length
      ∧ (makeRoom len s).eof = s.eof ∧ (makeRoom len s).num = s.num := by
  have hf := h.fits
  have hs := h.small
  have hvl := view_length hf
  simp only [makeRoom]
  rw [Nat.mod_eq_of_lt (by omega)]
  split
  · split
    · next h2 =>
      have hv : SIn.view { s with buf := s.view ++ List.replicate (len - s.num) 0, offset := 0 }
          = s.view := by
        conv => lhs; simp only [SIn.view]
        rw [List.drop_zero]
        exact List.take_left' hvl
      refine ⟨⟨?_, ?_, ?_, h.eof, ?_, ?_⟩, ?_, rfl, rfl⟩
      · rw [hv]; exact h.rem_eq
      · simp [hvl]
      · simp
      · simp [hvl]; omega
      · simp [hvl]; omega
      · simp [hvl]; omega
    · next h2 =>
      have hv : SIn.view { s with buf := s.view ++ s.buf.drop s.num, offset := 0 } = s.view := by
        conv => lhs; simp only [SIn.view]
        rw [List.drop_zero]
        exact List.take_left' hvl
      have hl : (s.view ++ s.buf.drop s.num).length = s.buf.length := by simp [hvl]; omega
      refine ⟨⟨?_, ?_, ?_, h.eof, ?_, ?_⟩, ?_, rfl, rfl⟩
      · rw [hv]; exact h.rem_eq
      · simp only [hl]; omega
      · simp
      · simp only [hl]; exact hs
      · simp only [hl]; exact h.pos
      · simp only [hl]; omega
  · exact ⟨h, by omega, rfl, rfl⟩

theorem getPtr_inv {M : Nat} {rem : Bytes} {s : SIn} (h : Inv M rem s) (len : Nat)
    (hlen : len ≤ M) (hM : 2 * M < 2 ^ 32) :
    ∃ s' , getPtr fullReads s len = some (s', s'.view) ∧ Inv M rem s' ∧ s.num ≤ s'.num ∧
      (max len 1 ≤ s'.num ∨ s'.rest = []) := by
  simp only [getPtr]
  split
  · next he => exact ⟨s, rfl, h, Nat.le_refl _, Or.inr (h.eof he)⟩
  · next he =>
    split
    · next hc => exact ⟨s, rfl, h, Nat.le_refl _, Or.inl (by omega)⟩
    · next hc =>
      obtain ⟨a1, a2, a3, a4⟩ := makeRoom_inv h len hlen hM hc
      obtain ⟨s', b1, b2, b3, b4⟩ := fill_inv a1 len a2 (by rw [a3]; simpa using he)
      rw [b1]
      exact ⟨s', rfl, b2, by omega, b4⟩

theorem release_inv {M : Nat} {rem : Bytes} {s : SIn} (h : Inv M rem s) (len : Nat) (hl : len ≤ s.num) :
    ∃ s', release s len = some s' ∧ Inv M (rem.drop len) s' ∧ s'.num = s.num - len := by
  have hf := h.fits
  have hvl := view_length hf
  simp only [release]
  rw [if_neg (by omega)]
  split
  · next heq =>
    subst heq
    refine ⟨_, rfl, ⟨?_, ?_, ?_, h.eof, h.small, h.pos⟩, by simp⟩
    · rw [h.rem_eq, List.drop_left' hvl]
      simp [SIn.view]
    · simp
    · simp
  · next hne =>
    refine ⟨_, rfl, ⟨?_, ?_, ?_, h.eof, h.small, h.pos⟩, rfl⟩
    · rw [h.rem_eq, List.drop_append_of_le_length (by omega)]
      simp only [SIn.view, List.drop_take, List.drop_drop]
    · simp only; omega
    · simp only; omega

theorem runOps_inv {M : Nat} (hM : 2 * M < 2 ^ 32) (ops : List Op)
    (hops : ∀ n, .get n ∈ ops → n ≤ M) : ∀ (rem : Bytes) (s : SIn), Inv M rem s →
    ∃ tr, runOps fullReads s ops = some tr ∧ tr.map (·.1) = ops ∧ Delivers rem s.num tr := by
  induction ops with
  | nil => intro rem s _; exact ⟨[], rfl, rfl, .nil ..⟩
  | cons op ops ih =>
    intro rem s h
    have ih' := ih (fun n hn => hops n (by simp [hn]))
    cases op with
    | get n =>
      obtain ⟨s', h1, h2, h3, h4⟩ := getPtr_inv h n (hops n (by simp)) hM
      obtain ⟨tr, t1, t2, t3⟩ := ih' rem s' h2
      have hvl := view_length h2.fits
      refine ⟨_, by simp only [runOps, h1, t1, Option.map_some]; rfl, by simp [t2], ?_⟩
      refine .get ?_ ?_ (by omega) (by rw [hvl]; exact t3)
      · rw [h2.rem_eq]; exact List.prefix_append ..
      · rcases h4 with h4 | h4
        · left; omega
        · right; rw [h2.rem_eq, h4]; simp
    | release n =>
      by_cases hn : n ≤ s.num
      · obtain ⟨s', h1, h2, h3⟩ := release_inv h n hn
        obtain ⟨tr, t1, t2, t3⟩ := ih' _ s' h2
        refine ⟨_, by simp only [runOps, h1, t1, Option.map_some]; rfl, by simp [t2], ?_⟩
        exact .releaseOk hn (by rw [← h3]; exact t3)
      · obtain ⟨tr, t1, t2, t3⟩ := ih' rem s h
        have h1 : release s n = none := by simp [release]; omega
        refine ⟨_, by simp only [runOps, h1, t1, Option.map_some]; rfl, by simp [t2], ?_⟩
        exact .releaseThrow (by omega) t3

/-- **C28, partial.** With reads that are short only at the end of the stream, a buffer of
`bufLen` bytes and requests up to `M` bytes (together less than 2^32, see
`stream_large_request_hangs`): every sequence of requests and releases gets its answers, and they
deliver the stream. -/
theorem stream_delivers_partial (content : Bytes) (bufLen M : Nat) (h0 : 0 < bufLen) (h1 : bufLen ≤ M)
    (hM : 2 * M < 2 ^ 32) (ops : List Op) (hops : ∀ n, .get n ∈ ops → n ≤ M) :
    ∃ tr, runOps fullReads (SIn.init bufLen content) ops = some tr ∧ tr.map (·.1) = ops ∧
      Delivers content 0 tr :=
  runOps_inv hM ops hops content _ (Inv.init h0 h1 content)

/-- With the library's 8192-byte buffers (src/ParserInput.cc 117, 155), for requests below 2^31. -/
theorem stream_delivers_8192_partial (content : Bytes) (ops : List Op)
    (hops : ∀ n, .get n ∈ ops → n < 2 ^ 31) :
    ∃ tr, runOps fullReads (SIn.init 8192 content) ops = some tr ∧ tr.map (·.1) = ops ∧
      Delivers content 0 tr :=
  stream_delivers_partial content 8192 (2 ^ 31 - 1) (by omega) (by omega) (by omega) ops
    (fun n hn => by have := hops n hn; omega)

/-- C28 is false for a `Read` that may return fewer bytes than asked for before the end of the
stream, as the interface allows ("return number of bytes read into ptr, 0 on EOF"): the first
short answer is taken for the end, and the rest of the stream is never delivered. -/
theorem stream_short_read_false :
    ∃ (rd : Nat → Bytes → Nat) (content : Bytes) (tr : List (Op × Res)),
      (∀ n rest, n ≠ 0 → rest ≠ [] → 0 < readCount rd n rest) ∧
      runOps rd (SIn.init 8 content) [.get 1, .release 1, .get 1] = some tr ∧
      ¬ Delivers content 0 tr := by
  refine ⟨fun _ _ => 1, [97, 98], [(.get 1, .bytes [97]), (.release 1, .ok), (.get 1, .bytes [])],
    ?_, ?_, ?_⟩
  · intro n rest hn hr
    have : 0 < rest.length := List.length_pos_iff.mpr hr
    simp only [readCount]; omega
  · simp [runOps, getPtr, makeRoom, fill, readMore, readCount, SIn.init, SIn.view, release]
  · intro h
    cases h with
    | get _ _ _ h =>
      cases h with
      | releaseOk _ h =>
        cases h with
        | get _ h2 _ _ => simp at h2

/-- C28 is false for very large requests: `len + offset` wraps, no room is made, and the request
never returns although the stream has more to give. -/
theorem stream_large_request_hangs :
    runOps fullReads (SIn.init 2 [1, 2, 3, 4]) [.get 2, .release 1, .get 0xFFFFFFFF] = none := by
  have h1 : getPtr fullReads (SIn.init 2 [1, 2, 3, 4]) 2 = some (⟨[1, 2], 2, 0, false, [3, 4]⟩, [1, 2]) := by
    simp [getPtr, makeRoom, fill, readMore, readCount, fullReads, SIn.init, SIn.view]
  have h2 : release ⟨[1, 2], 2, 0, false, [3, 4]⟩ 1 = some ⟨[1, 2], 1, 1, false, [3, 4]⟩ := rfl
  have h3 : ∀ n, n = 0xFFFFFFFF → getPtr fullReads ⟨[1, 2], 1, 1, false, [3, 4]⟩ n = none := by
    intro n hn
    have hm : makeRoom n ⟨[1, 2], 1, 1, false, [3, 4]⟩ = ⟨[1, 2], 1, 1, false, [3, 4]⟩ := by
      simp only [makeRoom]
      rw [if_neg]
      subst hn; decide
    simp only [getPtr, hm]
    rw [if_neg (by decide), if_neg (by omega), fill, if_pos ⟨rfl, by simp only; omega⟩, dif_pos (by decide)]
  simp only [runOps, h1, h2, h3 _ rfl, Option.map_none]

/-- A case that refills, compacts and grows the buffer. -/
example : runOps fullReads (SIn.init 4 [1, 2, 3, 4, 5, 6, 7, 8, 9])
    [.get 3, .release 3, .get 3, .release 1, .get 6, .release 9, .release 4, .get 0, .get 5] =
    some [(.get 3, .bytes [1, 2, 3, 4]), (.release 3, .ok), (.get 3, .bytes [4, 5, 6, 7]),
      (.release 1, .ok), (.get 6, .bytes [5, 6, 7, 8, 9]), (.release 9, .threw), (.release 4, .ok),
      (.get 0, .bytes [9]), (.get 5, .bytes [9])] := by
  simp [runOps, getPtr, makeRoom, fill, readMore, readCount, fullReads, SIn.init, SIn.view, release]

/-! ## C29 -/

/-- What a sequence of writes should leave: those that still fit are appended, the others are
refused. -/
def accepted (room : Nat) : List Bytes → Bytes
  | [] => []
  | d :: ds => if d.length ≤ room then d ++ accepted (room - d.length) ds else accepted room ds

/-- **C29, partial.** For single writes that together with the space used stay below 2^32: every
sequence of writes ends without storing outside the buffer, the buffer's size is unchanged, the
bytes stored are exactly the accepted writes in order, everything after them is untouched, and the
length counter says how many there are. -/
theorem memory_output_partial (mem : Bytes) (used : Nat) (hu : used ≤ mem.length) (ds : List Bytes)
    (hsmall : ∀ d ∈ ds, mem.length + d.length < 2 ^ 32) :
    ∃ o, MemOut.writes ⟨mem, used⟩ ds = .ok o ∧
      o.mem = mem.take used ++ accepted (mem.length - used) ds
        ++ mem.drop (used + (accepted (mem.length - used) ds).length) ∧
      o.used = used + (accepted (mem.length - used) ds).length ∧ o.mem.length = mem.length := by
  induction ds generalizing mem used with
  | nil => exact ⟨_, rfl, by simp [accepted], by simp [accepted], rfl⟩
  | cons d ds ih =>
    have hd := hsmall d (by simp)
    simp only [MemOut.writes, MemOut.write]
    rw [Nat.mod_eq_of_lt (by omega)]
    by_cases hfit : used + d.length > mem.length
    · rw [if_pos hfit]
      simp only [accepted]
      rw [if_neg (by omega)]
      exact ih mem used hu (fun d' hd' => hsmall d' (by simp [hd']))
    · rw [if_neg hfit, if_neg hfit]
      simp only [accepted]
      rw [if_pos (by omega)]
      generalize hm : mem.take used ++ d ++ mem.drop (used + d.length) = mem'
      have hl : mem'.length = mem.length := by
        rw [← hm]; simp; omega
      obtain ⟨o, h1, h2, h3, h4⟩ := ih mem' (used + d.length) (by omega)
        (fun d' hd' => by rw [hl]; exact hsmall d' (by simp [hd']))
      rw [hl, show mem.length - (used + d.length) = mem.length - used - d.length by omega] at h2 h3
      refine ⟨o, h1, ?_, by rw [h3]; simp; omega, by rw [h4, hl]⟩
      rw [h2]
      have e1 : mem'.take (used + d.length) = mem.take used ++ d := by
        rw [← hm]; exact List.take_left' (by simp; omega)
      have e2 : mem'.drop (used + d.length + (accepted (mem.length - used - d.length) ds).length)
          = mem.drop (used + (d ++ accepted (mem.length - used - d.length) ds).length) := by
        rw [← hm, List.drop_append, List.drop_eq_nil_of_le (by simp; omega), List.nil_append,
          List.drop_drop]
        congr 1
        simp; omega
      rw [e1, e2]
      simp

/-- C29 is false at the 32-bit wrap: with 5 bytes used of 10, a write of 2^32 - 5 bytes passes the
check and stores outside the buffer. -/
theorem memory_output_wrap_false :
    MemOut.write ⟨List.replicate 10 0, 5⟩ (List.replicate (2 ^ 32 - 5) 0) = .ub := by
  have h : ∀ d : Bytes, d.length = 2 ^ 32 - 5 → MemOut.write ⟨List.replicate 10 0, 5⟩ d = .ub := by
    intro d hd
    simp only [MemOut.write, List.length_replicate, hd]
    rw [if_neg (by omega), if_pos (by omega)]
  exact h _ (List.length_replicate ..)

example : MemOut.writes ⟨[0, 0, 0, 0, 0], 0⟩ [[1, 2], [3, 4, 5, 6], [7], []] = .ok ⟨[1, 2, 7, 0, 0], 3⟩ := by
  decide

end Verif.IO
