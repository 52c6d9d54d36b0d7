import Verif.IO.Adapter
/-!
# C119: the libraries get the bytes of the input; C120: read errors
-/

namespace Verif.IO
open Verif

/-! ## Specification -/

/-- The next bytes, as many as asked for or all that are left. -/
def pieces : Bytes → List Nat → List Bytes
  | _, [] => []
  | b, n :: ns => b.take n :: pieces (b.drop n) ns

/-- What reads of the sizes may answer when the file has the bytes `b` and then fails: each the next bytes, or an exception where fewer
are left than asked for. -/
inductive Answers : Bytes → List Nat → List (Out Bytes) → Prop
  | nil (b : Bytes) : Answers b [] []
  | bytes {b : Bytes} {n : Nat} {ns : List Nat} {rs : List (Out Bytes)} :
      Answers (b.drop n) ns rs → Answers b (n :: ns) (.ok (b.take n) :: rs)
  | error {b : Bytes} {n : Nat} {ns : List Nat} {rs : List (Out Bytes)} :
      b.length < max n 1 → Answers b ns rs → Answers b (n :: ns) (.throw .runtime :: rs)

/-! ## Proof -/

theorem fillF_false (len : Nat) (s : SIn) : fillF false len s = (fill fullReads len s).map (·, false) := by
  induction s using fillF.induct (fails := false) (len := len) with
  | case1 s h h0 => rw [fillF, fill, if_pos h, if_pos h, dif_pos h0, dif_pos h0]; rfl
  | case2 s h h0 hf => simp at hf
  | case3 s h h0 hf s' he =>
    rw [fillF, fill, if_pos h, if_pos h, dif_neg h0, dif_neg h0, if_neg hf]
    simp only
    rw [dif_pos he, dif_pos he]; rfl
  | case4 s h h0 hf s' he ih =>
    rw [fillF, fill, if_pos h, if_pos h, dif_neg h0, dif_neg h0, if_neg hf]
    simp only
    rw [dif_neg he, dif_neg he]; exact ih
  | case5 s h => rw [fillF, fill, if_neg h, if_neg h]; rfl

/-- One `GetPtr`, on any file: as much as asked for or all of it, or an exception if there is less. -/
theorem getPtrF_inv {M : Nat} {rem : Bytes} {s : SIn} (fails : Bool) (h : Inv M rem s) (len : Nat) (hlen : len ≤ M) (hM : 2 * M < 2 ^ 32) :
    ∃ s' r, getPtrF fails s len = some (s', r) ∧ Inv M rem s' ∧
      ((r = .ok s'.view ∧ (max len 1 ≤ s'.num ∨ s'.rest = [])) ∨ (r = .throw .runtime ∧ fails = true ∧ rem.length < max len 1)) := by
  simp only [getPtrF]
  split
  · next he => exact ⟨s, _, rfl, h, .inl ⟨rfl, Or.inr (h.eof he)⟩⟩
  · next he =>
    split
    · next hc => exact ⟨s, _, rfl, h, .inl ⟨rfl, Or.inl (by omega)⟩⟩
    · next hc =>
      obtain ⟨a1, a2, a3, a4⟩ := makeRoom_inv h len hlen hM hc
      generalize makeRoom len s = t at *
      have te : t.eof = false := by rw [a3]; simpa using he
      rw [fillF]
      by_cases hc2 : t.eof = false ∧ (t.num < len ∨ t.num = 0)
      · rw [if_pos hc2]
        have h0 : t.buf.length - t.num - t.offset ≠ 0 := by
          have := a1.pos
          rcases hc2.2 with h1 | h1
          · omega
          · have := a1.zero h1; omega
        rw [dif_neg h0]
        by_cases hr : t.rest = [] ∧ fails = true
        · rw [if_pos hr]
          refine ⟨t, _, rfl, a1, .inr ⟨rfl, hr.2, ?_⟩⟩
          have := view_length a1.fits
          rw [a1.rem_eq, hr.1, List.append_nil, this]
          omega
        · rw [if_neg hr]
          obtain ⟨h1, h2, h3, h4⟩ := readMore_inv a1 h0
          simp only
          by_cases heof : (readMore fullReads t).eof = true
          · rw [dif_pos heof]
            exact ⟨_, _, rfl, h1, .inl ⟨rfl, .inr (h1.eof heof)⟩⟩
          · rw [dif_neg heof]
            have := h2 (by simpa using heof)
            have hbig : max len 1 ≤ (readMore fullReads t).num := by omega
            rw [fillF, if_neg (by omega)]
            exact ⟨_, _, rfl, h1, .inl ⟨rfl, .inl hbig⟩⟩
      · rw [if_neg hc2]
        refine ⟨t, _, rfl, a1, .inl ⟨rfl, .inl ?_⟩⟩
        simp only [te, true_and] at hc2
        omega

/-- One read of a library. -/
theorem doRead_inv {M : Nat} {rem : Bytes} {s : SIn} (fails : Bool) (h : Inv M rem s) (len : Nat) (hlen : len ≤ M) (hM : 2 * M < 2 ^ 32) :
    ∃ s' r, doRead (.stream fails s) len = some (.stream fails s', r) ∧
      ((r = .ok (rem.take len) ∧ Inv M (rem.drop len) s') ∨ (r = .throw .runtime ∧ fails = true ∧ rem.length < max len 1 ∧ Inv M rem s')) := by
  obtain ⟨s', r, h1, h2, h3⟩ := getPtrF_inv fails h len hlen hM
  rcases h3 with ⟨rfl, h3⟩ | ⟨rfl, hf, hl⟩
  · have hvl := view_length h2.fits
    have hrem := h2.rem_eq
    simp only [doRead, Input.get, h1, Option.map_some]
    by_cases hv : s'.view = []
    · rw [if_pos hv]
      have hr : s'.rest = [] := by
        rcases h3 with h3 | h3
        · rw [hv] at hvl; simp at hvl; omega
        · exact h3
      have : rem = [] := by rw [hrem, hv, hr]; rfl
      subst this
      exact ⟨s', _, rfl, .inl ⟨by simp, by simpa using h2⟩⟩
    · rw [if_neg hv]
      have hmin : min len s'.view.length ≤ s'.num := by omega
      obtain ⟨s'', g1, g2, -⟩ := release_inv h2 _ hmin
      simp only [Input.release, g1, Option.map_some]
      have ht : s'.view.take (min len s'.view.length) = rem.take len ∧ rem.drop (min len s'.view.length) = rem.drop len := by
        rcases h3 with h3 | h3
        · rw [Nat.min_eq_left (by omega), hrem, List.take_append_of_le_length (by omega)]
          exact ⟨rfl, rfl⟩
        · rw [h3, List.append_nil] at hrem
          rw [hrem]
          constructor
          · rcases Nat.le_total len s'.view.length with hl | hl
            · rw [Nat.min_eq_left hl]
            · rw [Nat.min_eq_right hl, List.take_length, List.take_of_length_le hl]
          · rcases Nat.le_total len s'.view.length with hl | hl
            · rw [Nat.min_eq_left hl]
            · rw [Nat.min_eq_right hl, List.drop_length, List.drop_of_length_le hl]
      refine ⟨s'', _, rfl, .inl ⟨by rw [ht.1], ?_⟩⟩
      rw [← ht.2]; exact g2
  · simp only [doRead, Input.get, h1, Option.map_some]
    exact ⟨s', _, rfl, .inr ⟨rfl, hf, hl, h2⟩⟩

/-! ## The theorems -/

/-- **C119** for streams (files and stream buffers that can be read to their end): whatever sizes a library asks for, it gets the next bytes,
as many as it asked for or all that are left. -/
theorem stream_reads (content : Bytes) (ns : List Nat) (hn : ∀ n ∈ ns, n < 2 ^ 31) :
    reads (.stream false (SIn.init 8192 content)) ns = some ((pieces content ns).map .ok) := by
  have key : ∀ (ns : List Nat), (∀ n ∈ ns, n < 2 ^ 31) → ∀ rem s, Inv (2 ^ 31 - 1) rem s →
      reads (.stream false s) ns = some ((pieces rem ns).map .ok) := by
    intro ns
    induction ns with
    | nil => intro _ rem s _; rfl
    | cons n ns ih =>
      intro hn rem s h
      obtain ⟨s', r, h1, h2⟩ := doRead_inv false h n (by have := hn n (by simp); omega) (by omega)
      rcases h2 with ⟨rfl, h2⟩ | ⟨-, h2, -⟩
      · simp only [reads, h1, ih (fun m hm => hn m (by simp [hm])) _ _ h2, Option.map_some, pieces, List.map_cons]
      · cases h2
  exact key ns hn content _ (Inv.init (by omega) (by omega) content)

/-- **C119** for memory. -/
theorem memory_reads (content : Bytes) (hc : content.length < 2 ^ 32) (ns : List Nat) :
    reads (.mem ⟨content, 0⟩) ns = some ((pieces content ns).map .ok) := by
  have key : ∀ (ns : List Nat) (o : Nat), o ≤ content.length → reads (.mem ⟨content, o⟩) ns = some ((pieces (content.drop o) ns).map .ok) := by
    intro ns
    induction ns with
    | nil => intro o _; rfl
    | cons n ns ih =>
      intro o ho
      have hg : doRead (.mem ⟨content, o⟩) n = some (.mem ⟨content, o + min n (content.length - o)⟩, .ok ((content.drop o).take n)) := by
        simp only [doRead, Input.get, MIn.get]
        rw [if_neg (by omega)]
        dsimp only
        by_cases hd : content.drop o = []
        · rw [if_pos hd, hd]
          have := List.drop_eq_nil_iff.1 hd
          simp [show content.length - o = 0 by omega]
        · rw [if_neg hd]
          simp only [Input.release, MIn.release, List.length_drop]
          rw [Nat.mod_eq_of_lt (by omega)]
          rcases Nat.le_total n (content.length - o) with h | h
          · rw [Nat.min_eq_left h]
          · rw [Nat.min_eq_right h, List.take_of_length_le (l := List.drop o content) (i := n) (by simpa using h),
              List.take_of_length_le (by simp)]
      simp only [reads, hg, ih _ (show o + min n (content.length - o) ≤ content.length by omega), Option.map_some, pieces, List.map_cons,
        List.drop_drop]
      have : content.drop (o + min n (content.length - o)) = content.drop (o + n) := by
        rcases Nat.le_total n (content.length - o) with h | h
        · rw [Nat.min_eq_left h]
        · rw [Nat.min_eq_right h, List.drop_of_length_le (by omega), List.drop_of_length_le (by omega)]
      rw [this]
  have := key ns 0 (by omega)
  simpa using this

/-- The pieces put together are the beginning of the content, all of it if enough is asked for. -/
theorem pieces_join (b : Bytes) (ns : List Nat) : (pieces b ns).flatten = b.take ns.sum := by
  induction ns generalizing b with
  | nil => simp [pieces]
  | cons n ns ih => rw [pieces, List.flatten_cons, ih, List.sum_cons, List.take_add]

/-- A piece is empty only at the end. -/
theorem piece_empty (b : Bytes) (n : Nat) (hn : 0 < n) : b.take n = [] ↔ b = [] := by
  cases b <;> cases n <;> simp at hn ⊢

/-- **C120, partial.** A file that fails after some bytes: every read gets the next of these bytes, or throws where fewer are left than it
asked for.  Missing: that the error is always reported (`file_error_false`). -/
theorem file_reads_partial (content : Bytes) (ns : List Nat) (hn : ∀ n ∈ ns, n < 2 ^ 31) :
    ∃ rs, reads (.stream true (SIn.init 8192 content)) ns = some rs ∧ Answers content ns rs := by
  have key : ∀ (ns : List Nat), (∀ n ∈ ns, n < 2 ^ 31) → ∀ rem s, Inv (2 ^ 31 - 1) rem s →
      ∃ rs, reads (.stream true s) ns = some rs ∧ Answers rem ns rs := by
    intro ns
    induction ns with
    | nil => intro _ rem s _; exact ⟨[], rfl, .nil _⟩
    | cons n ns ih =>
      intro hn rem s h
      have ih := ih (fun m hm => hn m (by simp [hm]))
      obtain ⟨s', r, h1, h2⟩ := doRead_inv true h n (by have := hn n (by simp); omega) (by omega)
      rcases h2 with ⟨rfl, h2⟩ | ⟨rfl, -, hl, h2⟩
      · obtain ⟨rs, e, ha⟩ := ih _ _ h2
        exact ⟨_, by simp only [reads, h1, e, Option.map_some], .bytes ha⟩
      · obtain ⟨rs, e, ha⟩ := ih _ _ h2
        exact ⟨_, by simp only [reads, h1, e, Option.map_some], .error hl ha⟩
  exact key ns hn content _ (Inv.init (by omega) (by omega) content)

/-- What a fresh buffer reads. -/
theorem getPtrF_fresh (fails : Bool) (buf rest : Bytes) (hb : 0 < buf.length) (len : Nat) (hl : len ≤ buf.length) (hs : buf.length < 2 ^ 32) :
    getPtrF fails ⟨buf, 0, 0, false, rest⟩ len =
      if rest = [] ∧ fails = true then some (⟨buf, 0, 0, false, rest⟩, .throw .runtime)
      else
        let k := min buf.length rest.length
        some (⟨rest.take k ++ buf.drop k, k, 0, decide (k < buf.length), rest.drop k⟩, .ok (rest.take k)) := by
  have hm : makeRoom len ⟨buf, 0, 0, false, rest⟩ = ⟨buf, 0, 0, false, rest⟩ := by
    simp only [makeRoom, Nat.add_zero]; rw [Nat.mod_eq_of_lt (by omega), if_neg (by omega)]
  simp only [getPtrF, hm]
  rw [if_neg (by simp), if_neg (by simp), fillF, if_pos (by simp), dif_neg (by dsimp only; omega)]
  by_cases h : rest = [] ∧ fails = true
  · rw [if_pos h, if_pos h]
  · rw [if_neg h, if_neg h]
    have hk : readCount fullReads (buf.length - 0 - 0) rest = min buf.length rest.length := by simp [readCount, fullReads]
    have hv : ((rest.take (min buf.length rest.length) ++ buf.drop (min buf.length rest.length)).drop 0).take (min buf.length rest.length)
        = rest.take (min buf.length rest.length) := by
      rw [List.drop_zero]; exact List.take_left' (by simp)
    have hr : readMore fullReads ⟨buf, 0, 0, false, rest⟩ = ⟨rest.take (min buf.length rest.length) ++ buf.drop (min buf.length rest.length),
        min buf.length rest.length, 0, decide (min buf.length rest.length < buf.length), rest.drop (min buf.length rest.length)⟩ := by
      simp only [readMore, hk]; simp
    simp only [hr]
    by_cases he : min buf.length rest.length < buf.length
    · rw [dif_pos (by simpa using he)]
      simp only [SIn.view, hv]
    · rw [dif_neg (by simpa using he), fillF, if_neg (by dsimp only; omega)]
      simp only [SIn.view, hv]

/-- **C120.** When a document is read block by block to its end, the error of a file is reported exactly if the number of bytes before it is a
multiple of the size of the buffer; otherwise the file looks as if it ended there. -/
theorem file_error_iff (fails : Bool) (bufLen : Nat) (hb : 0 < bufLen) (hs : bufLen < 2 ^ 32) (content : Bytes) :
    ∃ blocks, readAll fails (content.length + 2) (SIn.init bufLen content) = some (blocks, fails && decide (content.length % bufLen = 0)) ∧
      blocks.flatten = content := by
  have key : ∀ (n : Nat) (rest buf : Bytes), rest.length ≤ n → buf.length = bufLen →
      ∃ blocks, readAll fails (n + 2) ⟨buf, 0, 0, false, rest⟩ = some (blocks, fails && decide (rest.length % bufLen = 0)) ∧ blocks.flatten = rest := by
    intro n
    induction n with
    | zero =>
      intro rest buf hr hl
      have : rest = [] := List.length_eq_zero_iff.1 (by omega)
      subst this
      rw [readAll, getPtrF_fresh _ _ _ (by omega) 0 (by omega) (by omega)]
      cases fails
      · exact ⟨[], by simp, rfl⟩
      · exact ⟨[], by simp, rfl⟩
    | succ n ih =>
      intro rest buf hr hl
      rw [readAll, getPtrF_fresh _ _ _ (by omega) 0 (by omega) (by omega)]
      by_cases h : rest = [] ∧ fails = true
      · rw [if_pos h]
        obtain ⟨rfl, rfl⟩ := h
        exact ⟨[], by simp, rfl⟩
      · rw [if_neg h]
        dsimp only
        by_cases h0 : rest = []
        · subst h0
          have hf : fails = false := by cases fails <;> simp_all
          subst hf
          exact ⟨[], by simp, rfl⟩
        · have hpos : 0 < rest.length := List.length_pos_iff.2 h0
          have hk : 0 < min buf.length rest.length := by omega
          have hlen : (rest.take (min buf.length rest.length)).length = min buf.length rest.length := by simp
          rw [if_neg (by intro e; rw [e] at hlen; simp at hlen; omega), hlen]
          simp only [Verif.IO.release]
          rw [if_neg (by omega), if_pos trivial]
          dsimp only
          by_cases he : min buf.length rest.length < buf.length
          · -- the short block is taken for the end
            rw [decide_eq_true he, readAll, getPtrF]
            simp only [if_true, SIn.view, List.take_zero, Option.map_some]
            refine ⟨[rest.take (min buf.length rest.length)], ?_, ?_⟩
            · have : rest.length % bufLen ≠ 0 := by rw [Nat.mod_eq_of_lt (by omega)]; omega
              simp [this]
            · rw [List.flatten_cons, List.flatten_nil, List.append_nil, List.take_of_length_le (by omega)]
          · rw [decide_eq_false he]
            obtain ⟨bs, e, hb2⟩ := ih (rest.drop (min buf.length rest.length))
              (rest.take (min buf.length rest.length) ++ buf.drop (min buf.length rest.length)) (by simp; omega) (by simp; omega)
            rw [e]
            refine ⟨_, rfl |>.trans ?_, by rw [List.flatten_cons, hb2, List.take_append_drop]⟩
            have : min buf.length rest.length = bufLen := by omega
            rw [this]
            simp only [Option.map_some, List.length_drop]
            rw [Nat.mod_eq_sub_mod (a := rest.length) (by omega)]
  have := key content.length content (List.replicate bufLen 0) (Nat.le_refl _) (by simp)
  exact this

/-- C120 is false: a file that fails after five bytes is read as a file of five bytes, by a library and by blocks, without an exception. -/
theorem file_error_false :
    reads (.stream true (SIn.init 8192 [1, 2, 3, 4, 5])) [3, 3, 3] = some [.ok [1, 2, 3], .ok [4, 5], .ok []] ∧
    ∃ blocks, readAll true 7 (SIn.init 8192 [1, 2, 3, 4, 5]) = some (blocks, false) := by
  constructor
  · have h0 : (List.replicate 8192 (0 : UInt8)).length = 8192 := List.length_replicate
    unfold SIn.init
    generalize List.replicate 8192 (0 : UInt8) = buf at *
    have h1 := getPtrF_fresh true buf [1, 2, 3, 4, 5] (by omega) 3 (by omega) (by omega)
    rw [if_neg (by simp)] at h1
    have hk : min buf.length [1, 2, 3, 4, (5 : UInt8)].length = 5 := by rw [h0]; rfl
    have hd : decide (5 < buf.length) = true := by rw [h0]; rfl
    simp only [hk, hd] at h1
    have h2 : doRead (.stream true ⟨buf, 0, 0, false, [1, 2, 3, 4, 5]⟩) 3 =
        some (.stream true ⟨[1, 2, 3, 4, 5] ++ buf.drop 5, 2, 3, true, []⟩, .ok [1, 2, 3]) := by
      simp [doRead, Input.get, h1, Input.release, Verif.IO.release]
    rw [reads, h2]
    simp [reads, doRead, Input.get, Input.release, Verif.IO.release, getPtrF, SIn.view]
  · obtain ⟨b, h, -⟩ := file_error_iff true 8192 (by omega) (by omega) [1, 2, 3, 4, 5]
    exact ⟨b, h⟩

/-- Two blocks of four bytes and an error. -/
example : readAll true 10 (SIn.init 4 [1, 2, 3, 4, 5, 6, 7, 8]) = some ([[1, 2, 3, 4], [5, 6, 7, 8]], true) := by
  simp [readAll, getPtrF, makeRoom, fillF, readMore, readCount, fullReads, SIn.init, SIn.view, Verif.IO.release]

example : reads (.stream false (SIn.init 4 [1, 2, 3, 4, 5, 6, 7])) [3, 0, 9, 1] = some [.ok [1, 2, 3], .ok [], .ok [4, 5, 6, 7], .ok []] := by
  simp [reads, doRead, Input.get, Input.release, getPtrF, makeRoom, fillF, readMore, readCount, fullReads, SIn.init, SIn.view, Verif.IO.release]

end Verif.IO
