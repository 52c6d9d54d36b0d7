import Verif.Payload.Model
import Verif.Json.EmitProps
import Verif.Val.OpsLemmas
/-!
# Where the payload starts (C44)
-/

namespace Verif.Payload
open Verif Verif.Event Verif.JsonEmit

/-- The bytes of the payload of `v`: those at the data path, nothing if there are none. -/
def payloadBytes (v : Val) (o : Opts) : Bytes :=
  match getPath? v o.dataPath with
  | some (.blob s) => if o.ignorePayload then [] else s.flatten
  | _ => []

theorem padLen_spec (n : Nat) : 1 ≤ padLen n ∧ padLen n ≤ 32 ∧ 32 ∣ n + padLen n + 1 := by
  unfold padLen; omega

theorem writePad_done (w : Nat → Nat) (num : Nat) (m : Mach) (written : Nat) (h : num ≤ written) :
    writePad w num m written = m := by
  rw [writePad, if_neg (by omega)]

theorem drop_pad (num written : Nat) (h : written ≤ num) :
    (List.replicate num (10 : UInt8) ++ [0]).drop written = List.replicate (num - written) 10 ++ [0] := by
  rw [List.drop_append_of_le_length (by simpa using h), List.drop_replicate]

theorem writePad_out (w : Nat → Nat) (num : Nat) (m : Mach) (written : Nat) (h : written ≤ num) :
    (writePad w num m written).buf = m.buf ∧
    ((writePad w num m written).out = m.out ++ List.replicate (num - written) 10 ++ [0] ∨
      (writePad w num m written).out = m.out ++ List.replicate (num - written) 10) := by
  induction m, written using writePad.induct w num with
  | case1 m written hlt k ih =>
    rw [writePad, if_pos hlt]
    dsimp only at ih ⊢
    have hk : 1 ≤ k ∧ k ≤ num + 1 - written := by simp only [k, accept]; omega
    change (writePad w num { m with out := _ ++ List.take k _, calls := _ } (written + k)).buf = _ ∧ _
    by_cases hw : written + k ≤ num
    · have := ih hw
      refine ⟨this.1, ?_⟩
      have e : m.out ++ List.take k (List.drop written (List.replicate num (10 : UInt8) ++ [0])) =
          m.out ++ List.replicate k 10 := by
        rw [drop_pad _ _ h, List.take_append_of_le_length (by simp; omega), List.take_replicate]
        congr 2; omega
      have e2 : List.replicate k (10 : UInt8) ++ List.replicate (num - (written + k)) 10 =
          List.replicate (num - written) 10 := by
        rw [List.replicate_append_replicate]; congr 1; omega
      rw [← e2]
      rcases this.2 with g | g
      · left; exact g.trans (by rw [e]; simp)
      · right; exact g.trans (by rw [e]; simp)
    · have hk' : k = num + 1 - written := by omega
      rw [writePad_done _ _ _ _ (by omega)]
      refine ⟨rfl, .inl ?_⟩
      show m.out ++ List.take k _ = _
      rw [drop_pad _ _ h, List.take_of_length_le (by simp; omega)]
      simp
  | case2 m written hlt =>
    rw [writePad, if_neg hlt]
    have : num - written = 0 := by omega
    rw [this]
    exact ⟨rfl, .inr (by simp)⟩

/-- An output taking at least `num + 1` bytes of a block takes the padding whole. -/
theorem writePad_whole (w : Nat → Nat) (num : Nat) (m : Mach) (h : 0 < num) (hw : num ≤ w m.calls) :
    (writePad w num m 0).out = m.out ++ List.replicate num 10 ++ [0] := by
  have hk : accept w m.calls (num + 1 - 0) = num + 1 := by simp only [accept]; omega
  rw [writePad, if_pos h]
  simp only [hk]
  rw [writePad_done _ _ _ _ (by omega)]
  show m.out ++ List.take _ _ = _
  rw [List.take_of_length_le (by simp)]
  simp

theorem writeSlabs_out (w : Nat → Nat) (s : List Bytes) (m : Mach) :
    (writeSlabs w m s).out = m.out ++ s.flatten := by
  induction s generalizing m with
  | nil => simp [writeSlabs]
  | cons x r ih => rw [writeSlabs, ih, (writeAll_out w _ m x).1]; simp

/-- What is written, in terms of the text of the header. -/
theorem serializeTo_eq {num : Bytes → Option UInt64} {ff : FloatFmt} {c : Cfg} {w : Nat → Nat} {o : Opts} {m m' : Mach}
    {v : Val} (hb : m.buf = []) (h : serializeTo num ff c w o m v = .ok m') :
    v.ty = .map ∧ ∃ n calls cs st m1,
      (o.payloadLength = none → ∀ s, getPath? v o.dataPath = some (.blob s) →
        n = UInt64.ofNat (Blob.totalLength (s.map (·.length)))) ∧
      payloadCalls num n v (some o.lengthPath) (some o.dataPath) = .ok calls ∧
      emitOps ff c [] (calls.flatMap jsonOps) = .ok (cs, st) ∧
      m1.out = m.out ++ text cs ∧
      m'.out = (writePad w (padLen m1.out.length) m1 0).out ++ payloadBytes v o := by
  unfold serializeTo at h
  split at h
  · cases h
  rename_i hty
  refine ⟨by simpa using hty, ?_⟩
  cases hbl : findPayload v o with
  | throw e => rw [hbl] at h; simp at h
  | ub => rw [hbl] at h; simp at h
  | ok bl =>
  rw [hbl] at h
  simp only [Out.bind_ok] at h
  cases hn : findLength num v o bl with
  | throw e => rw [hn] at h; simp at h
  | ub => rw [hn] at h; simp at h
  | ok n =>
  rw [hn] at h
  simp only [Out.bind_ok] at h
  cases hc : payloadCalls num n v (some o.lengthPath) (some o.dataPath) with
  | throw e => rw [hc] at h; simp at h
  | ub => rw [hc] at h; simp at h
  | ok calls =>
  rw [hc] at h
  simp only [Out.bind_ok] at h
  cases he : emitOps ff c [] (calls.flatMap jsonOps) with
  | throw e => rw [he] at h; simp at h
  | ub => rw [he] at h; simp at h
  | ok r =>
  obtain ⟨m1, h1, h2, _⟩ := exec_text w m r.1 (by simp [hb])
  have h3 : (flush w m1).out = m.out ++ text r.1 := by rw [(flush_out w m1).1, h2, hb]; simp
  rw [he] at h
  simp only [Out.bind_ok, h1, Out.ok.injEq] at h
  refine ⟨n, calls, r.1, r.2, flush w m1, ?_, hc, he, h3, ?_⟩
  · intro hnone s hs
    simp only [findPayload, hasPath, hs, Option.isSome_some, if_true, getPath_some hs, Out.bind_ok, asBlob, Out.ok.injEq] at hbl
    simp only [findLength, hasPath, hs, hnone, Option.isSome_some, if_true, Out.map_ok, Option.getD_none, Out.ok.injEq] at hn
    rw [← hn, hbl]
  · rw [← h]
    cases hg : getPath? v o.dataPath with
    | none => simp [payloadBytes, hg, hasPath]
    | some x =>
      simp only [findPayload, hasPath, hg, Option.isSome_some, if_true, getPath_some hg, Out.bind_ok] at hbl
      cases x with
      | blob s =>
        cases hbl
        cases hi : o.ignorePayload <;> simp [payloadBytes, hg, hi, hasPath, writeSlabs_out]
      | _ => simp [asBlob] at hbl

/-- C44, for every output: after the header come one to 32 line feeds, after which the
position is one below a multiple of 32; then the NUL byte, unless the output took the line feeds
exactly, when the NUL is missing; then the payload. -/
theorem payload_layout {num : Bytes → Option UInt64} {ff : FloatFmt} {c : Cfg} {w : Nat → Nat} {o : Opts} {m m' : Mach}
    {v : Val} (hb : m.buf = []) (h : serializeTo num ff c w o m v = .ok m') :
    ∃ header k, 1 ≤ k ∧ k ≤ 32 ∧ 32 ∣ (m.out ++ header).length + k + 1 ∧
      (m'.out = m.out ++ header ++ List.replicate k 10 ++ [0] ++ payloadBytes v o ∨
       m'.out = m.out ++ header ++ List.replicate k 10 ++ payloadBytes v o) := by
  obtain ⟨_, n, calls, cs, st, m1, _, _, _, h1, h2⟩ := serializeTo_eq hb h
  have hp := padLen_spec m1.out.length
  refine ⟨text cs, padLen m1.out.length, hp.1, hp.2.1, by rw [← h1]; exact hp.2.2, ?_⟩
  rw [h2, ← h1]
  rcases (writePad_out w (padLen m1.out.length) m1 0 (by omega)).2 with g | g
  · left; rw [g]; simp
  · right; rw [g]; simp

/-- C44, partial: for an output that takes at least 33 bytes of a block offered to it (memory, and
files short of errors), the payload starts at a multiple of 32 bytes and is preceded by a NUL byte.
Missing: outputs with shorter writes, for which the claim is false (`payload_nul_false`). -/
theorem payload_aligned_partial {num : Bytes → Option UInt64} {ff : FloatFmt} {c : Cfg} {w : Nat → Nat} {o : Opts}
    {m m' : Mach} {v : Val} (hb : m.buf = []) (hw : ∀ i, 32 ≤ w i) (h : serializeTo num ff c w o m v = .ok m') :
    ∃ header k, 1 ≤ k ∧ k ≤ 32 ∧ 32 ∣ (m.out ++ header ++ List.replicate k (10 : UInt8) ++ [0]).length ∧
      m'.out = m.out ++ header ++ List.replicate k 10 ++ [0] ++ payloadBytes v o := by
  obtain ⟨_, n, calls, cs, st, m1, _, _, _, h1, h2⟩ := serializeTo_eq hb h
  have hp := padLen_spec m1.out.length
  refine ⟨text cs, padLen m1.out.length, hp.1, hp.2.1, ?_, ?_⟩
  · rw [← h1]; simpa [Nat.add_assoc] using hp.2.2
  · rw [h2, writePad_whole _ _ _ hp.1 (Nat.le_trans hp.2.1 (hw _)), ← h1]

/-- `{"d": blob 01}`, data path `d`, length path `l`. -/
def exV : Val := .map [([0x64], .blob [[1]])]
def exO : Opts := ⟨[.key [0x64]], [.key [0x6c]], false, none⟩

theorem exV_out (w : Nat → Nat) : ∃ m1 : Mach, m1.out = [0x7b, 0x22, 0x6c, 0x22, 0x3a, 0x20, 0x31, 0x7d] ∧
    serializeTo (fun _ => none) (fun _ _ => []) ⟨false, false, 4, 17⟩ w exO ⟨[], [], 0⟩ exV =
      .ok (writeSlabs w (writePad w 23 m1 0) [[1]]) := by
  have hc : payloadCalls (fun _ => none) 1 exV (some [.key [0x6c]]) (some [.key [0x64]]) =
      .ok [.beginMap (toInt32 1), .str [0x6c], .uint 1, .endMap] := rfl
  have he : emitOps (fun _ _ => []) ⟨false, false, 4, 17⟩ [] ([Call.beginMap (toInt32 1), .str [0x6c], .uint 1, .endMap].flatMap jsonOps) =
      .ok ([.raw [0x7b], .raw [0x22], .raw [0x6c], .raw [0x22], .raw [0x3a, 0x20], .raw (natDec 1), .raw [0x7d], .flush], []) := rfl
  obtain ⟨m1, h1, h2, _⟩ := exec_text w ⟨[], [], 0⟩ [.raw [0x7b], .raw [0x22], .raw [0x6c], .raw [0x22],
    .raw [0x3a, 0x20], .raw (natDec 1), .raw [0x7d], .flush] (by simp)
  have ho : (flush w m1).out = [0x7b, 0x22, 0x6c, 0x22, 0x3a, 0x20, 0x31, 0x7d] := by
    rw [(flush_out w m1).1, h2]
    simp only [text_cons, text_nil, Chunk.text, natDec_lt (show 1 < 10 by decide)]
    rfl
  refine ⟨flush w m1, ho, ?_⟩
  have hp : findPayload exV exO = .ok [[1]] := rfl
  have hn : findLength (fun _ => none) exV exO [[1]] = .ok 1 := rfl
  unfold serializeTo
  rw [if_neg (by decide), hp]
  simp only [Out.bind_ok]
  rw [hn]
  simp only [Out.bind_ok]
  rw [show exO.lengthPath = [.key [0x6c]] from rfl, show exO.dataPath = [.key [0x64]] from rfl, hc]
  simp only [Out.bind_ok, he, h1, ho]
  rfl

/-- The example is written with an aligned payload. -/
example : ∃ m', serializeTo (fun _ => none) (fun _ _ => []) ⟨false, false, 4, 17⟩ (fun _ => 100) exO ⟨[], [], 0⟩ exV = .ok m' ∧
    m'.out = [0x7b, 0x22, 0x6c, 0x22, 0x3a, 0x20, 0x31, 0x7d] ++ List.replicate 23 10 ++ [0] ++ [1] := by
  obtain ⟨m1, h1, h2⟩ := exV_out (fun _ => 100)
  refine ⟨_, h2, ?_⟩
  rw [writeSlabs_out, writePad_whole _ _ _ (by decide) (by simp), h1]
  rfl

/-- C44, finding: an output that takes exactly the line feeds (here 23 of the 24 bytes offered) gets
no NUL byte; the payload follows the line feeds, one byte short of a multiple of 32. -/
theorem payload_nul_false : ∃ (w : Nat → Nat) (m' : Mach),
    serializeTo (fun _ => none) (fun _ _ => []) ⟨false, false, 4, 17⟩ w exO ⟨[], [], 0⟩ exV = .ok m' ∧
    m'.out = [0x7b, 0x22, 0x6c, 0x22, 0x3a, 0x20, 0x31, 0x7d] ++ List.replicate 23 10 ++ [1] ∧ (0 : UInt8) ∉ m'.out := by
  obtain ⟨m1, h1, h2⟩ := exV_out (fun _ => 22)
  have e : (writeSlabs (fun _ => 22) (writePad (fun _ => 22) 23 m1 0) [[1]]).out =
      [0x7b, 0x22, 0x6c, 0x22, 0x3a, 0x20, 0x31, 0x7d] ++ List.replicate 23 10 ++ [1] := by
    rw [writeSlabs_out, writePad, if_pos (by decide)]
    have hk : accept (fun _ => 22) m1.calls (23 + 1 - 0) = 23 := rfl
    simp only [hk]
    rw [writePad_done _ _ _ _ (by omega)]
    show m1.out ++ _ ++ _ = _
    rw [h1]
    rfl
  exact ⟨_, _, h2, e, by rw [e]; decide⟩

end Verif.Payload
