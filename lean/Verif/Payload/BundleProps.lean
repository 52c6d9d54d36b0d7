import Verif.Payload.BundleRound
/-!
# C122 Bundles with a payload
-/

namespace Verif.PBundle
open Verif Verif.JsonDrv
open Verif.Guess (intOf)
open Verif.Bundle (memberLine allSome GoodKey GoodMember ReadBack Plain versionText memory stream)
open Verif.Payload (padLen)

/-! ## Specification -/

/-- The payload of a map: the bytes of `payload.data`, none if there is no such member. -/
def HasPayload (m : List (Bytes × Val)) (payload : Bytes) : Prop :=
  (∃ segs, AMap.get m dataKey = some (.blob segs) ∧ payload = segs.flatten) ∨ (AMap.get m dataKey = none ∧ payload = [])

/-- `m'` is what comes back for `m` with this payload: the payload in one buffer if it is not empty, its length, and the
other members as a bundle header gives them back. -/
structure CameBack (ff : UInt64 → Bytes) (fo : FloatOps) (m : List (Bytes × Val)) (payload : Bytes) (m' : List (Bytes × Val)) :
    Prop where
  sorted : AMap.Sorted m'
  data : AMap.get m' dataKey = if payload = [] then none else some (.blob [payload])
  length : ∃ y, AMap.get m' lengthKey = some y ∧ intOf y = some (payload.length : Int)
  missing : ∀ k, k ≠ dataKey → k ≠ lengthKey → AMap.get m k = none → AMap.get m' k = none
  member : ∀ k x, k ≠ dataKey → k ≠ lengthKey → AMap.get m k = some x → ∃ y, AMap.get m' k = some y ∧ ReadBack ff fo x y

/-- The two default paths of bundles are single keys. -/
theorem default_paths : PathM.parsePath dataKey = .ok opts.dataPath ∧ PathM.parsePath lengthKey = .ok opts.lengthPath := ⟨rfl, rfl⟩

/-! ## Proof -/

theorem payload_segs {m : List (Bytes × Val)} {payload : Bytes} (h : HasPayload m payload) : ∃ segs : List Bytes,
    (AMap.get m dataKey = some (.blob segs) ∨ AMap.get m dataKey = none ∧ segs = []) ∧ payload = segs.flatten := by
  rcases h with ⟨segs, h1, h2⟩ | ⟨h1, h2⟩
  · exact ⟨segs, .inl h1, h2⟩
  · exact ⟨[], .inr ⟨h1, rfl⟩, h2⟩

theorem length_written {segs : List Bytes} (h : segs.flatten.length < 2 ^ 32) :
    (UInt64.ofNat (Blob.totalLength (segs.map (·.length)))).toNat = segs.flatten.length := by
  have hsum : (segs.map (·.length)).sum = segs.flatten.length := by rw [List.length_flatten]
  rw [Blob.totalLength_eq _ (by omega), hsum, UInt64.toNat_ofNat']
  exact Nat.mod_eq_of_lt (by omega)

/-- C122.  What is written: the header, in which the length of the payload stands for the payload, newlines, a NUL and
the payload, which begins at a multiple of 32 bytes.  If some member has no text it throws. -/
theorem bundle_written (num : Bytes → Option UInt64) (ff : UInt64 → Bytes) (before : Nat) {m : List (Bytes × Val)} {payload : Bytes}
    (hp : HasPayload m payload) (h32 : payload.length < 2 ^ 32) :
    match allSome ((written (UInt64.ofNat payload.length) m).map (memberLine ff)) with
    | none => writeBundle num ff opts before (.map m) = .throw .runtime
    | some ls => ∃ pad, writeBundle num ff opts before (.map m) =
        .ok (versionText ++ ls.flatten ++ List.replicate pad 10 ++ [0] ++ payload) ∧ 1 ≤ pad ∧ pad ≤ 32 ∧
        32 ∣ before + (versionText ++ ls.flatten ++ List.replicate pad 10 ++ [0]).length := by
  obtain ⟨segs, h1, rfl⟩ := payload_segs hp
  have hn : UInt64.ofNat (Blob.totalLength (segs.map (·.length))) = UInt64.ofNat segs.flatten.length := by
    apply UInt64.toNat.inj
    rw [length_written h32, UInt64.toNat_ofNat']
    exact (Nat.mod_eq_of_lt (by omega)).symm
  have hw := write_spec num ff before h1
  rw [hn] at hw
  rw [hw]
  cases allSome ((written (UInt64.ofNat segs.flatten.length) m).map (memberLine ff)) with
  | none => rfl
  | some ls =>
    obtain ⟨h2, h3, h4⟩ := Payload.padLen_spec (before + (versionText ++ ls.flatten).length)
    refine ⟨_, rfl, h2, h3, ?_⟩
    have : before + (versionText ++ ls.flatten ++ List.replicate (padLen (before + (versionText ++ ls.flatten).length)) 10 ++ [0]).length =
        before + (versionText ++ ls.flatten).length + padLen (before + (versionText ++ ls.flatten).length) + 1 := by
      simp only [List.length_append, List.length_replicate, List.length_cons, List.length_nil]
      omega
    rw [this]
    exact h4

/-- C122.  A value that is not a map, or whose `payload.data` is not a blob, is refused. -/
theorem bundle_refused (num : Bytes → Option UInt64) (ff : UInt64 → Bytes) (before : Nat) :
    (∀ v : Val, v.ty ≠ .map → writeBundle num ff opts before v = .throw .runtime) ∧
    (∀ m x, AMap.get m dataKey = some x → x.ty ≠ .blob → writeBundle num ff opts before (.map m) = .throw .unexpectedType) := by
  refine ⟨fun v h => by rw [writeBundle, if_pos h], fun m x h hx => ?_⟩
  have hh : hasPath (.map m) opts.dataPath = true := by
    simp only [hasPath, opts, getPath?, getElem?, getKey?, h]; rfl
  have hf : Payload.findPayload (.map m) opts = .throw .unexpectedType := by
    rw [Payload.findPayload, if_pos hh]
    simp only [opts, getPath, getElemC, getKeyC, h]
    cases x <;> first | rfl | exact absurd rfl hx
  rw [writeBundle, if_neg (by simp [Val.ty]), hf]
  rfl

theorem came_back {ff : UInt64 → Bytes} {fo : FloatOps} {n : UInt64} {m m' : List (Bytes × Val)} {payload : Bytes} (hs : AMap.Sorted m)
    (hn : payload.length = n.toNat) (h1 : AMap.Sorted m') (h2 : AMap.get m' dataKey = if payload = [] then none else some (.blob [payload]))
    (h3 : ∀ k, k ≠ dataKey → (∀ x, (k, x) ∉ written n m) → AMap.get m' k = none)
    (h4 : ∀ k x, (k, x) ∈ written n m → ∃ y, AMap.get m' k = some y ∧ ReadBack ff fo x y) : CameBack ff fo m payload m' where
  sorted := h1
  data := h2
  length := by
    obtain ⟨y, h5, h6⟩ := h4 lengthKey (.uint n) ((written_mem hs _ _).2 (.inl ⟨rfl, rfl⟩))
    refine ⟨y, h5, ?_⟩
    rw [(Bundle.read_back_partial ff fo y).2.2.2.1 n h6, hn]
  missing := by
    intro k hk hl hg
    refine h3 k hk fun x hx => ?_
    rcases (written_mem hs _ _).1 hx with ⟨h, _⟩ | ⟨_, _, h⟩
    · exact hl h
    · rw [hg] at h; cases h
  member := by
    intro k x hk hl hg
    exact h4 k x ((written_mem hs _ _).2 (.inr ⟨hk, hl, hg⟩))

/-- C122.  A bundle is read back from memory: the payload byte for byte, its length and the other members, and what
follows the bundle is not touched.  Missing: other members that a bundle header does not give back (`GoodMember`),
payloads of 2^32 bytes and more. -/
theorem bundle_round_trip_partial (num : Bytes → Option UInt64) (ff : UInt64 → Bytes) (fo : FloatOps) (stale : Nat → Bool) (before : Nat)
    {m : List (Bytes × Val)} {payload : Bytes} (hs : AMap.Sorted m) (hp : HasPayload m payload) (h32 : payload.length < 2 ^ 32)
    (hm : ∀ k x, AMap.get m k = some x → k ≠ dataKey → k ≠ lengthKey → GoodKey k ∧ GoodMember ff x) (rest : Bytes) :
    ∃ out m' N, writeBundle num ff opts before (.map m) = .ok out ∧ CameBack ff fo m payload m' ∧
      ∀ fuel ≥ N, readBundle num fo stale memory peekMemory fuel opts (out ++ rest) = some (.ok (.map m', rest)) := by
  have hw := bundle_written num ff before hp h32
  have hgood := written_good (ff := ff) (n := UInt64.ofNat payload.length) hs hm
  obtain ⟨ls, fs, h1, _⟩ := Bundle.members_lines _ hgood
  rw [h1] at hw
  obtain ⟨pad, hw, _⟩ := hw
  have hn : payload.length = (UInt64.ofNat payload.length).toNat := by
    rw [UInt64.toNat_ofNat']; exact (Nat.mod_eq_of_lt (by omega)).symm
  obtain ⟨m', N, h2, h3, h4, h5, h6⟩ := read_spec num ff fo stale (j := pad) hgood (fun h h' => written_unique hs h h')
    ((written_mem hs _ _).2 (.inl ⟨rfl, rfl⟩))
    (fun x hx => by
      rcases (written_mem hs _ _).1 hx with ⟨h, _⟩ | ⟨h, _⟩
      · exact keys_differ h.symm
      · exact h rfl)
    h1 hn (by omega) (memory_shows _ _ (payload ++ rest)) (Nat.le_add_right _ (UInt64.ofNat payload.length).toNat) (by omega)
  refine ⟨_, m', N, hw, came_back hs hn h2 h3 h4 h5, fun fuel hf => ?_⟩
  obtain ⟨s', a', h7, h8, _⟩ := h6 fuel hf
  subst h8
  rw [← h7]
  simp

/-- C122.  Reading it from a file or stream gives the same, if header, padding and NUL fit in the input's buffer.
Missing: longer headers (see `long_header_reads_outside`), and sizes of 2^31 - 4096 bytes and more. -/
theorem bundle_from_file_partial (num : Bytes → Option UInt64) (ff : UInt64 → Bytes) (fo : FloatOps) (stale : Nat → Bool) (before : Nat)
    {m : List (Bytes × Val)} {payload : Bytes} (hs : AMap.Sorted m) (hp : HasPayload m payload)
    (hm : ∀ k x, AMap.get m k = some x → k ≠ dataKey → k ≠ lengthKey → GoodKey k ∧ GoodMember ff x) (rest : Bytes)
    {out : Bytes} (hw : writeBundle num ff opts before (.map m) = .ok out) {bufLen : Nat} (hb : out.length ≤ bufLen + payload.length)
    (h31 : bufLen + out.length + 4096 < 2 ^ 31) (h32 : payload.length < 2 ^ 32) :
    ∃ m' N, CameBack ff fo m payload m' ∧
      ∀ fuel ≥ N, ∃ s', readBundle num fo stale stream peekStream fuel opts (IO.SIn.init bufLen (out ++ rest)) =
        some (.ok (.map m', s')) ∧ s'.view ++ s'.rest = rest := by
  have hw' := bundle_written num ff before hp h32
  have hgood := written_good (ff := ff) (n := UInt64.ofNat payload.length) hs hm
  obtain ⟨ls, fs, h1, _⟩ := Bundle.members_lines _ hgood
  rw [h1] at hw'
  obtain ⟨pad, hw', _⟩ := hw'
  rw [hw] at hw'
  have hout := Out.ok.inj hw'
  have hn : payload.length = (UInt64.ofNat payload.length).toNat := by
    rw [UInt64.toNat_ofNat']; exact (Nat.mod_eq_of_lt (by omega)).symm
  have hol : out.length = (versionText ++ (ls.map (· ++ [10])).flatten ++ List.replicate pad 10).length + 1 + payload.length := by
    rw [hout]
    simp only [List.length_append, List.length_cons, List.length_nil]
  have hq : (versionText ++ (ls.map (· ++ [10])).flatten ++ List.replicate pad 10).length + 4096 ≤ bufLen + out.length + 4096 := by
    omega
  have hsh := stream_shows (M := bufLen + out.length + 4096) (bufLen := bufLen) (tail := payload ++ rest)
    (h := versionText ++ (ls.map (· ++ [10])).flatten ++ List.replicate pad 10) (Bundle.double_lt h31) (by omega) (by omega)
  obtain ⟨m', N, h2, h3, h4, h5, h6⟩ := read_spec num ff fo stale (j := pad) hgood (fun h h' => written_unique hs h h')
    ((written_mem hs _ _).2 (.inl ⟨rfl, rfl⟩))
    (fun x hx => by
      rcases (written_mem hs _ _).1 hx with ⟨h, _⟩ | ⟨h, _⟩
      · exact keys_differ h.symm
      · exact h rfl)
    h1 hn (by omega) hsh hq (by omega)
  refine ⟨m', N, came_back hs hn h2 h3 h4 h5, fun fuel hf => ?_⟩
  obtain ⟨s', a', h7, h8, _⟩ := h6 fuel hf
  refine ⟨s', ?_, h8.rem_eq.symm⟩
  rw [← h7, hout]
  simp

/-- C122.  With strings and lists of strings that a bundle header gives back unchanged, the map comes back as it was, but
for the length. -/
theorem plain_came_back {ff : UInt64 → Bytes} {fo : FloatOps} {m m' : List (Bytes × Val)} {payload : Bytes}
    (h : CameBack ff fo m payload m') (hm : ∀ k x, AMap.get m k = some x → k ≠ dataKey → k ≠ lengthKey → Plain x) (k : Bytes)
    (hd : k ≠ dataKey) (hl : k ≠ lengthKey) : AMap.get m' k = AMap.get m k := by
  cases hg : AMap.get m k with
  | none => exact h.missing k hd hl hg
  | some x =>
    obtain ⟨y, h1, h2⟩ := h.member k x hd hl hg
    rw [h1, (Bundle.plain_good ff (hm k x hg hd hl)).2 fo y h2]

/-- `{"a": "b", "payload.data": blob}`, the payload in two buffers, one of them empty -/
def sample : List (Bytes × Val) := [([97], .str [98]), (dataKey, .blob [[1, 0, 10], [], [0, 58]])]

/-- The hypotheses hold for a map with a member and a payload with NULs and newlines in it. -/
example : AMap.Sorted sample ∧ HasPayload sample [1, 0, 10, 0, 58] ∧
    ∀ ff k x, AMap.get sample k = some x → k ≠ dataKey → k ≠ lengthKey → GoodKey k ∧ GoodMember ff x := by
  refine ⟨?_, .inl ⟨_, rfl, rfl⟩, ?_⟩
  · simp only [sample, AMap.Sorted, AMap.above, List.mem_cons, List.not_mem_nil, or_false, forall_eq, false_implies, implies_true, and_true]
    decide
  · intro ff k x h hd _
    have := AMap.get_mem h
    simp only [sample, List.mem_cons, List.not_mem_nil, or_false, Prod.mk.injEq] at this
    rcases this with ⟨rfl, rfl⟩ | ⟨rfl, rfl⟩
    · refine ⟨⟨by decide, ?_, by decide⟩, .scalar (t := [98]) rfl (by unfold Bundle.GoodText; decide) ?_ ?_⟩
      · intro x h; cases h; rfl
      · intro x h; cases h; rfl
      · intro x h; cases h; rfl
    · exact absurd rfl hd

/-- It is written, fits in a buffer of 8192 bytes, and the file theorem applies. -/
example : ∃ out, writeBundle (fun _ => none) (fun _ => []) opts 0 (.map sample) = .ok out ∧ out.length = 69 ∧
    out.length ≤ 8192 + 5 ∧ 8192 + out.length + 4096 < 2 ^ 31 :=
  ⟨_, rfl, by decide +kernel, by decide +kernel, by decide +kernel⟩

/-! ## Findings -/

/-- C122, false for empty payloads: a map with an empty blob does not get it back, since a payload of no bytes is not
read. -/
theorem empty_payload_false (fo : FloatOps) (stale : Nat → Bool) :
    ¬ ∀ (m : List (Bytes × Val)), AMap.Sorted m → HasPayload m [] → AMap.get m dataKey = some (.blob []) →
      ∃ out m' N x, writeBundle (fun _ => none) (fun _ => []) opts 0 (.map m) = .ok out ∧
        (∀ fuel ≥ N, readBundle (fun _ => none) fo stale memory peekMemory fuel opts out = some (.ok (.map m', []))) ∧
        AMap.get m' dataKey = some x := by
  intro h
  have hm : AMap.Sorted [(dataKey, Val.blob [])] := by simp [AMap.Sorted, AMap.above]
  have hp : HasPayload [(dataKey, Val.blob [])] [] := .inl ⟨[], rfl, rfl⟩
  obtain ⟨out, m', N, x, h1, h2, h3⟩ := h _ hm hp rfl
  obtain ⟨out', m2, N', h4, h5, h6⟩ := bundle_round_trip_partial (fun _ => none) (fun _ => []) fo stale 0 hm hp (by decide)
    (fun k y hk hd _ => by
      have := AMap.get_mem hk
      simp only [List.mem_cons, List.not_mem_nil, or_false, Prod.mk.injEq] at this
      exact absurd this.1 hd) []
  rw [h1] at h4
  cases h4
  have h7 := h2 (max N N') (by omega)
  have h8 := h6 (max N N') (by omega)
  rw [List.append_nil] at h8
  rw [h7] at h8
  cases h8
  rw [h5.data] at h3
  cases h3

/-- When the second request goes wrong nothing is read. -/
theorem run_stuck {τ : Type} {P : Bundle.Input τ} {s p : τ} {v : Bytes} (h1 : P.get s 0 = some (p, v)) (hv : v ≠ []) (h2 : P.get p 0 = none)
    (lineFuel fuel : Nat) : runTo P lineFuel fuel s .start = none := by
  have hl : Bundle.readLine P lineFuel p 0 0 = none := by
    cases lineFuel with
    | zero => rfl
    | succ n => rw [Bundle.readLine, h2]
  have hk : Bundle.step P lineFuel p .key = none := by
    show Bundle.readKey P lineFuel lineFuel p = none
    cases lineFuel with
    | zero => rfl
    | succ n => rw [Bundle.readKey, hl]
  have hk' : ∀ fuel, runTo P lineFuel fuel p .key = none := by
    intro fuel
    cases fuel with
    | zero => rfl
    | succ n => rw [runTo, if_neg (by simp), hk]
  have hb : ∀ fuel, runTo P lineFuel fuel p .beginMap = none := by
    intro fuel
    cases fuel with
    | zero => rfl
    | succ n =>
      rw [runTo, if_neg (by simp)]
      simp only [Bundle.step, hk', Option.map_none]
  cases fuel with
  | zero => rfl
  | succ n =>
    rw [runTo, if_neg (by simp), Bundle.step, h1]
    cases v with
    | nil => exact absurd rfl hv
    | cons b v => simp only [hb, Option.map_none]

theorem no_header {σ : Type} (num : Bytes → Option UInt64) (fo : FloatOps) (stale : Nat → Bool) {I : Bundle.Input σ}
    {peek : σ → Nat → Option UInt8} {s : σ} {p : σ × Nat} {v : Bytes} (h1 : (proxy I peek).get (s, 0) 0 = some (p, v)) (hv : v ≠ [])
    (h2 : (proxy I peek).get p 0 = none) (fuel : Nat) : readBundle num fo stale I peek fuel opts s = none := by
  rw [readBundle, readHeader, run_stuck h1 hv h2]

theorem takeWhile_noNul {l : Bytes} (h : 0 ∉ l) : l.takeWhile (· ≠ 0) = l := by
  have := upTo_nul h []
  induction l with
  | nil => rfl
  | cons x l ih =>
    simp only [List.mem_cons, not_or] at h
    have hx : decide (x ≠ 0) = true := by simpa using fun e => h.1 e.symm
    simp only [List.takeWhile, hx]
    rw [ih h.2 (upTo_nul h.2 [])]

/-- The first request through the proxy when no NUL is shown. -/
theorem proxy_first {σ : Type} {I : Bundle.Input σ} {peek : σ → Nat → Option UInt8} {s s' : σ} {v : Bytes} (h1 : I.get s 0 = some (s', v))
    (hv : v ≠ []) (hp : peek s' 0 = v[0]?) (h0 : 0 ∉ v) : (proxy I peek).get (s, 0) 0 = some ((s', v.length), v) := by
  cases v with
  | nil => exact absurd rfl hv
  | cons b v =>
    have hb : b ≠ 0 := fun e => h0 (by simp [e])
    have hp : peek s' 0 = some b := hp
    simp only [proxy, h1, hp]
    rw [if_pos hb, List.drop_zero, takeWhile_noNul h0, Nat.zero_add, List.take_length]

/-- The second one, when the byte after the view is not there. -/
theorem proxy_second {σ : Type} {I : Bundle.Input σ} {peek : σ → Nat → Option UInt8} {p : σ × Nat} {s' : σ} {v : Bytes}
    (h1 : I.get p.1 0 = some (s', v)) (hv : v ≠ []) (hp : peek s' p.2 = none) : (proxy I peek).get p 0 = none := by
  cases v with
  | nil => exact absurd rfl hv
  | cons b v => simp only [proxy, h1, hp]

theorem first_block {bufLen : Nat} (hb : 0 < bufLen) {content : Bytes} (hl : bufLen ≤ content.length) :
    stream.get (IO.SIn.init bufLen content) 0 =
      some (⟨content.take bufLen, bufLen, 0, false, content.drop bufLen⟩, content.take bufLen) := by
  have hm : IO.makeRoom 0 (IO.SIn.init bufLen content) = IO.SIn.init bufLen content := by
    simp [IO.makeRoom, IO.SIn.init]
  have hr : IO.readMore (fun n _ => n) (IO.SIn.init bufLen content) =
      ⟨content.take bufLen, bufLen, 0, false, content.drop bufLen⟩ := by
    simp only [IO.readMore, IO.SIn.init, IO.readCount, List.length_replicate, Nat.sub_zero, Nat.add_zero, Nat.zero_add, Nat.min_self,
      Nat.min_eq_left hl, List.take_zero, List.nil_append, Nat.lt_irrefl, decide_false]
    rw [List.drop_of_length_le (by simp), List.append_nil]
  show IO.getPtr (fun n _ => n) (IO.SIn.init bufLen content) 0 = _
  rw [IO.getPtr, if_neg (by simp [IO.SIn.init]), if_neg (by simp [IO.SIn.init]), hm, IO.fill, if_pos ⟨rfl, .inr rfl⟩,
    dif_neg (by simp [IO.SIn.init]; omega)]
  dsimp only
  rw [hr, dif_neg (by simp), IO.fill, if_neg (by simp; omega)]
  simp only [IO.SIn.view, List.drop_zero]
  rw [List.take_take, Nat.min_self]

/-- C122, false for long headers: when the first `bufLen` bytes of a file have no NUL, its header does not fit in the
buffer and the second request of the parser reads behind the end of the buffer. -/
theorem long_header_reads_outside (num : Bytes → Option UInt64) (fo : FloatOps) (stale : Nat → Bool) {bufLen : Nat} (hb : 0 < bufLen)
    {content : Bytes} (hl : bufLen ≤ content.length) (h0 : 0 ∉ content.take bufLen) :
    (∃ p s' v, (proxy stream peekStream).get (IO.SIn.init bufLen content, 0) 0 = some (p, content.take bufLen) ∧
      stream.get p.1 0 = some (s', v) ∧ v ≠ [] ∧ s'.buf.length = s'.offset + p.2 ∧ peekStream s' p.2 = none) ∧
    ∀ fuel, readBundle num fo stale stream peekStream fuel opts (IO.SIn.init bufLen content) = none := by
  have hlen : (content.take bufLen).length = bufLen := by simp [hl]
  have hne : content.take bufLen ≠ [] := fun h => by rw [h] at hlen; simp at hlen; omega
  have h1 := proxy_first (peek := peekStream) (first_block hb hl) hne (by simp [peekStream]) h0
  rw [hlen] at h1
  have h2 : stream.get ⟨content.take bufLen, bufLen, 0, false, content.drop bufLen⟩ 0 =
      some (⟨content.take bufLen, bufLen, 0, false, content.drop bufLen⟩, content.take bufLen) := by
    simp only [stream]
    rw [IO.getPtr, if_neg (by simp), if_pos ⟨Nat.zero_le _, hb⟩]
    simp only [IO.SIn.view, List.drop_zero]
    rw [List.take_take, Nat.min_self]
  have h3 : peekStream ⟨content.take bufLen, bufLen, 0, false, content.drop bufLen⟩ bufLen = none := by
    simp [peekStream, hl]
  exact ⟨⟨_, _, _, h1, h2, hne, by simp [hl], h3⟩, no_header num fo stale h1 hne (proxy_second h2 hne h3)⟩

/-- C122, false for memory without a NUL: reading a header that ends with the memory reads the byte behind it. -/
theorem no_nul_reads_outside (num : Bytes → Option UInt64) (fo : FloatOps) (stale : Nat → Bool) {content : Bytes} (hne : content ≠ [])
    (h0 : 0 ∉ content) :
    (∃ p, (proxy memory peekMemory).get (content, 0) 0 = some (p, content) ∧ p = (content, content.length) ∧
      peekMemory p.1 p.2 = none) ∧
    ∀ fuel, readBundle num fo stale memory peekMemory fuel opts content = none := by
  have h1 := proxy_first (I := memory) (peek := peekMemory) (s := content) rfl hne rfl h0
  have h2 : peekMemory content content.length = none := by simp [peekMemory]
  exact ⟨⟨_, h1, rfl, h2⟩, no_header num fo stale h1 hne (proxy_second (I := memory) rfl hne h2)⟩

/-- A written header of more than 8192 bytes is such a file: one member with a string of 9000 bytes. -/
example : 8192 ≤ (versionText ++ [97, 58, 32] ++ List.replicate 9000 98 ++ [10]).length ∧
    0 ∉ (versionText ++ [97, 58, 32] ++ List.replicate 9000 98 ++ [10]).take 8192 := by
  refine ⟨?_, fun h => ?_⟩
  · rw [List.length_append, List.length_append, List.length_append, List.length_replicate]
    decide
  have := List.mem_of_mem_take h
  simp only [List.mem_append, List.mem_replicate] at this
  revert this
  simp [versionText]

end Verif.PBundle
