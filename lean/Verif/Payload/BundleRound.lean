import Verif.Payload.BundleWrite
/-!
# Reading back a bundle
-/

namespace Verif.PBundle
open Verif Verif.JsonDrv Verif.Event
open Verif.Guess (intOf)
open Verif.Bundle (Input St BEv Serves Lines memberLine memberText allSome GoodKey GoodMember GoodLine ReadBack versionText upToNul)
open Verif.Payload (Opts findPayload findLength payloadCalls padLen)

variable {σ : Type} {I : Input σ} {M : Nat} {R : Bytes → Nat → σ → Prop}

theorem blank_field (k v : Bytes) : ¬ Bundle.Field [] k v := by
  rintro ⟨b1, b2, b3, c, h, _⟩
  have := congrArg List.length h
  simp at this

theorem fields_blank {ls : List Bytes} {fs : List (Bytes × Bytes)} (h : Bundle.Fields ls fs) (j : Nat) :
    Bundle.Fields (ls ++ List.replicate j []) fs := by
  induction h with
  | nil =>
    rw [List.nil_append]
    induction j with
    | zero => exact .nil
    | succ j ih => rw [List.replicate_succ]; exact .other blank_field ih
  | other h1 _ ih => exact .other h1 ih
  | version h1 h2 _ ih => exact .version h1 h2 ih
  | field h1 h2 _ ih => exact .field h1 h2 ih

theorem lines_blank (j : Nat) : ((List.replicate j ([] : Bytes)).map (· ++ [10])).flatten = List.replicate j 10 := by
  induction j with
  | zero => rfl
  | succ j ih => rw [List.replicate_succ, List.map_cons, List.flatten_cons, ih]; rfl

theorem last_field {k : Bytes} : ∀ fs : List (Bytes × Bytes), k ∈ fs.map (·.1) → ∃ a raw b, fs = a ++ (k, raw) :: b ∧ ∀ f ∈ b, f.1 ≠ k := by
  intro fs
  induction fs with
  | nil => intro h; cases h
  | cons f fs ih =>
    intro h
    by_cases hin : k ∈ fs.map (·.1)
    · obtain ⟨a, raw, b, rfl, hl⟩ := ih hin
      exact ⟨f :: a, raw, b, rfl, hl⟩
    · rcases List.mem_cons.1 h with h | h
      · refine ⟨[], f.2, fs, by rw [h]; rfl, fun g hg e => hin ?_⟩
        rw [← e]; exact List.mem_map_of_mem hg
      · exact absurd h hin

theorem unsigned_of_int (num : Bytes → Option UInt64) {y : Val} {n : UInt64} (h : intOf y = some (n.toNat : Int)) :
    Payload.asUnsigned num y = .ok n := by
  cases y with
  | int i =>
    have h : i.toInt = (n.toNat : Int) := Option.some.inj h
    show Out.ok i.toUInt64 = .ok n
    have : i.toUInt64 = n := by
      apply UInt64.toNat.inj
      have h1 := Int64.toInt_lt i
      have h2 : i = Int64.ofInt (n.toNat : Int) := by rw [← h]; exact (Int64.ofInt_toInt i).symm
      have h3 : Int64.ofInt (n.toNat : Int) = n.toInt64 := by
        rw [Int64.ofInt_eq_ofNat]
        show Int64.ofNat n.toNat = UInt64.toInt64 n
        conv => rhs; rw [← UInt64.ofNat_toNat (x := n)]
        rfl
      rw [h2, h3]
      simp
    rw [this]
  | uint u =>
    have h : (u.toNat : Int) = (n.toNat : Int) := Option.some.inj h
    show Out.ok u = .ok n
    have : u = n := UInt64.toNat.inj (by omega)
    rw [this]
  | _ => cases h

/-- What is read from a header with these members, blank lines, a NUL and the payload. -/
theorem read_spec (num : Bytes → Option UInt64) (ff : UInt64 → Bytes) (fo : FloatOps) (stale : Nat → Bool)
    {peek : σ → Nat → Option UInt8} {s0 : σ} {ms : List (Bytes × Val)} {n : UInt64} {L : List Bytes} {payload rest : Bytes} {j : Nat}
    (hgood : ∀ p ∈ ms, GoodKey p.1 ∧ GoodMember ff p.2)
    (huniq : ∀ {k x x'}, (k, x) ∈ ms → (k, x') ∈ ms → x = x')
    (hlen : (lengthKey, .uint n) ∈ ms) (hdata : ∀ x, (dataKey, x) ∉ ms)
    (hL : allSome (ms.map (memberLine ff)) = some L) (hn : payload.length = n.toNat) (h32 : n.toNat < 2 ^ 32)
    (hs : Shows I M R peek s0 (versionText ++ L.flatten ++ List.replicate j 10) (payload ++ rest))
    (hM : (versionText ++ L.flatten ++ List.replicate j 10).length + 4096 ≤ M) (hnM : n.toNat ≤ M) :
    ∃ m' N, AMap.Sorted m' ∧ AMap.get m' dataKey = (if payload = [] then none else some (.blob [payload])) ∧
      (∀ k, k ≠ dataKey → (∀ x, (k, x) ∉ ms) → AMap.get m' k = none) ∧
      (∀ k x, (k, x) ∈ ms → ∃ y, AMap.get m' k = some y ∧ ReadBack ff fo x y) ∧
      ∀ fuel ≥ N, ∃ s' a', readBundle num fo stale I peek fuel opts s0 = some (.ok (.map m', s')) ∧ R rest a' s' := by
  obtain ⟨ls, fs, h1, h2, h3, h4, h5⟩ := Bundle.members_lines ms hgood
  rw [hL] at h1
  have h1 : L = ls.map (· ++ [10]) := Option.some.inj h1
  generalize hh : versionText ++ L.flatten ++ List.replicate j 10 = h at hs hM
  have h0 : 0 ∉ h := by
    rw [← hh]
    simp only [List.mem_append, not_or]
    refine ⟨⟨by decide, lines_noNul hgood hL⟩, fun e => ?_⟩
    have := List.eq_of_mem_replicate e
    cases this
  have hv : versionText = versionText.take 19 ++ [10] := by decide
  have hl : Lines h (versionText.take 19 :: (ls ++ List.replicate j [])) [] := by
    refine ⟨?_, ?_, nofun⟩
    · rw [← hh, h1]
      conv => lhs; rw [hv]
      simp only [List.map_cons, List.flatten_cons, List.map_append, List.flatten_append, lines_blank, List.append_assoc, List.append_nil]
    · intro l hl
      rcases List.mem_cons.1 hl with rfl | hl
      · decide
      · rcases List.mem_append.1 hl with hl | hl
        · exact h2 l hl
        · rw [List.eq_of_mem_replicate hl]; nofun
  have hf : Bundle.Fields (versionText.take 19 :: (ls ++ List.replicate j [])) fs :=
    .version Bundle.version_field (by decide) (fields_blank h3 j)
  have hne : h ≠ [] := by rw [← hh]; simp [versionText]
  obtain ⟨m1, N, ⟨hs1, hd1, hd2⟩, hrd⟩ := readHeader_spec fo stale (proxy_serves hs h0) (.inl ⟨rfl, rfl, rfl⟩) hl hM hne
  rw [← Bundle.fields_unique hf] at hd1 hd2
  have hnone : ∀ k, (∀ x, (k, x) ∉ ms) → AMap.get m1 k = none := by
    intro k hk
    refine hd1 k fun f hf' he => ?_
    have : k ∈ ms.map (·.1) := by rw [← h4, ← he]; exact List.mem_map_of_mem hf'
    obtain ⟨p, hp, rfl⟩ := List.mem_map.1 this
    exact hk p.2 hp
  have hsome : ∀ k x, (k, x) ∈ ms → ∃ y, AMap.get m1 k = some y ∧ ReadBack ff fo x y := by
    intro k x hx
    have hin : k ∈ fs.map (·.1) := by rw [h4]; exact List.mem_map_of_mem (f := (·.1)) hx
    obtain ⟨a, raw, b, he, hb⟩ := last_field fs hin
    obtain ⟨y, h11, h12⟩ := hd2 a k raw b he hb
    obtain ⟨x', h13, h14⟩ := h5 a k raw b he
    rw [huniq h13 hx] at h14
    exact ⟨y, h11, h14 fo y h12⟩
  have hdn := hnone dataKey hdata
  obtain ⟨y, hy1, hy2⟩ := hsome lengthKey (.uint n) hlen
  have hyn := (Bundle.read_back_partial ff fo y).2.2.2.1 n hy2
  have hpath : getPathDef (.map m1) opts.lengthPath (.uint 0) = y := by
    simp only [getPathDef, opts, getPath?, getElem?, getKey?, hy1]
  have hasU := unsigned_of_int num hyn
  have hM1 : 1 ≤ M := by omega
  -- the header and the NUL
  have hskip : ∀ fuel ≥ N + h.length + 1, ∃ p s2 a2, readHeader fo stale (proxy I peek) fuel (s0, 0) = some (p, .ok (.map m1)) ∧
      skipTo I fuel p.1 = some s2 ∧ R (payload ++ rest) a2 s2 := by
    intro fuel hfu
    obtain ⟨p, hp1, pre, rem', av, hp2, hp3, _⟩ := hrd fuel (by omega)
    have hlen' : rem'.length ≤ h.length := by rw [hp2]; simp
    have hb : ∃ a, R (rem' ++ 0 :: (payload ++ rest)) a p.1 := by
      rcases hp3 with ⟨rfl, rfl, _⟩ | ⟨a, hRa, _⟩
      · exact ⟨0, hs.start⟩
      · exact ⟨a, hRa⟩
    obtain ⟨a, hRa⟩ := hb
    obtain ⟨s2, a2, hk1, hk2⟩ := skipTo_spec hs.serves hM1 fuel p.1 rem' a hRa (fun e => h0 (by rw [hp2]; exact List.mem_append_right _ e))
      (by omega)
    exact ⟨p, s2, a2, hp1, hk1, hk2⟩
  by_cases hp0 : payload = []
  · subst hp0
    have hn0 : n.toNat = 0 := by rw [← hn]; rfl
    refine ⟨m1, N + h.length + 1, hs1, by rw [if_pos rfl]; exact hdn, fun k _ hk => hnone k hk, hsome, fun fuel hfu => ?_⟩
    obtain ⟨p, s2, a2, hq1, hq2, hq3⟩ := hskip fuel hfu
    refine ⟨s2, a2, ?_, hq3⟩
    rw [readBundle, hq1]
    dsimp only
    rw [hq2]
    dsimp only
    rw [hpath, hasU]
    dsimp only
    rw [if_neg (by omega)]
  · have hn1 : n.toNat > 0 := by
      rw [← hn]
      cases payload with
      | nil => exact absurd rfl hp0
      | cons b t => simp
    refine ⟨AMap.set m1 dataKey (.blob [payload]), N + h.length + 1, AMap.sorted_set hs1 _ _, ?_, ?_, ?_, fun fuel hfu => ?_⟩
    · rw [if_neg hp0, AMap.get_set_self]
    · intro k hk hkn
      rw [AMap.get_set_other _ _ _ _ hk]; exact hnone k hkn
    · intro k x hx
      have hk : k ≠ dataKey := by rintro rfl; exact hdata x hx
      rw [AMap.get_set_other _ _ _ _ hk]; exact hsome k x hx
    · obtain ⟨p, s2, a2, hq1, hq2, hq3⟩ := hskip fuel hfu
      have hmod : n.toNat % 2 ^ 32 = n.toNat := Nat.mod_eq_of_lt h32
      obtain ⟨s3, v, hg1, hg2, hg3, hg4, _⟩ := hs.serves.get hq3 (n := n.toNat) hnM
      have hvl : n.toNat ≤ v.length := by
        rcases hg4 with h | h
        · omega
        · rw [h, ← hn]; simp
      have hvt : v.take n.toNat = payload := by
        obtain ⟨x, hx⟩ := hg3
        have := congrArg (List.take n.toNat) hx
        rw [List.take_append_of_le_length hvl, ← hn, List.take_left'] at this
        · rw [← hn]; exact this
        · rfl
      obtain ⟨s4, hr1, hr2⟩ := hs.serves.release hg2 hvl
      have hdr : (payload ++ rest).drop n.toNat = rest := by rw [← hn]; simp
      rw [hdr] at hr2
      refine ⟨s4, _, ?_, hr2⟩
      rw [readBundle, hq1]
      dsimp only
      rw [hq2]
      dsimp only
      rw [hpath, hasU]
      dsimp only
      rw [if_pos hn1, hmod, hg1]
      dsimp only
      rw [if_neg (by omega), hr1, hvt]
      simp only [setPath, opts, getElem?, getKey?, hdn, if_true, setElem, setKey]

/-! ## Inputs that show the NUL -/

theorem memory_shows (M : Nat) (h tail : Bytes) :
    Shows Bundle.memory M (fun rem avail s => s = rem ∧ avail ≤ rem.length) peekMemory (h ++ 0 :: tail) h tail where
  serves := Bundle.memory_serves M
  start := ⟨rfl, Nat.zero_le _⟩
  first := by
    intro n _ s' v hg
    cases hg
    simp
  release := by simp [Bundle.memory]
  peek := by
    rintro rem avail s n s' v _ _ hg i _
    cases hg
    rfl

/-- The first read fills the buffer. -/
theorem first_read {M : Nat} {rem : Bytes} {s s' : IO.SIn} {v : Bytes} (hi : IO.Inv M rem s) (h0 : s.num = 0) (he : s.eof = false)
    (n : Nat) (hn : n ≤ M) (hM : 2 * M < 2 ^ 32) (hg : IO.getPtr IO.fullReads s n = some (s', v)) :
    min s.buf.length s.rest.length ≤ s'.num := by
  rw [IO.getPtr, if_neg (by simp [he]), if_neg (by omega)] at hg
  obtain ⟨a1, a2, a3, a4⟩ := IO.makeRoom_inv hi n hn hM (by omega)
  have hrest : (IO.makeRoom n s).rest = s.rest ∧ s.buf.length ≤ (IO.makeRoom n s).buf.length := by
    have hf := hi.fits
    have hvl := IO.view_length hf
    simp only [IO.makeRoom]
    split
    · split
      · exact ⟨rfl, by simp only [List.length_append, hvl, List.length_replicate]; omega⟩
      · exact ⟨rfl, by simp only [List.length_append, hvl, List.length_drop]; omega⟩
    · exact ⟨rfl, Nat.le_refl _⟩
  generalize IO.makeRoom n s = t at *
  have hz := a1.zero (by omega)
  have hc : t.eof = false ∧ (t.num < n ∨ t.num = 0) := ⟨by rw [a3, he], .inr (by omega)⟩
  have hp := a1.pos
  have hne : t.buf.length - t.num - t.offset ≠ 0 := by omega
  obtain ⟨b1, b2, b3, b4⟩ := IO.readMore_inv a1 hne
  have hnum : min s.buf.length s.rest.length ≤ (IO.readMore IO.fullReads t).num := by
    simp only [IO.readMore, IO.readCount, IO.fullReads]
    rw [← hrest.1]
    omega
  rw [IO.fill, if_pos hc, dif_neg hne] at hg
  dsimp only at hg
  by_cases heof : (IO.readMore IO.fullReads t).eof = true
  · rw [dif_pos heof] at hg
    cases hg
    exact hnum
  · rw [dif_neg heof] at hg
    obtain ⟨s2, c1, c2, c3, c4⟩ := IO.fill_inv b1 n (by omega) (by simpa using heof)
    rw [c1] at hg
    cases hg
    omega

theorem stream_shows {M bufLen : Nat} {h tail : Bytes} (hM : 2 * M < 2 ^ 32) (hb : h.length < bufLen) (hbM : bufLen ≤ M) :
    Shows Bundle.stream M (fun rem avail s => IO.Inv M rem s ∧ avail ≤ s.num) peekStream (IO.SIn.init bufLen (h ++ 0 :: tail)) h tail where
  serves := Bundle.stream_serves hM
  start := ⟨IO.Inv.init (by omega) hbM _, Nat.zero_le _⟩
  first := by
    intro n hn s' v hg
    have hinit : IO.Inv M (h ++ 0 :: tail) (IO.SIn.init bufLen (h ++ 0 :: tail)) := IO.Inv.init (by omega) hbM _
    obtain ⟨s2, h1, h2, h3, h4⟩ := IO.getPtr_inv hinit n hn hM
    have hg : IO.getPtr IO.fullReads (IO.SIn.init bufLen (h ++ 0 :: tail)) n = some (s', v) := hg
    have he : s2 = s' ∧ s2.view = v := by
      have := h1.symm.trans hg
      cases this
      exact ⟨rfl, rfl⟩
    obtain ⟨rfl, rfl⟩ := he
    rw [IO.view_length h2.fits]
    have hfirst := first_read hinit rfl rfl n hn hM h1
    have h5 : min bufLen (h ++ 0 :: tail).length ≤ s2.num := by simpa [IO.SIn.init] using hfirst
    simp only [List.length_append, List.length_cons] at h5
    omega
  release := by simp [Bundle.stream, IO.release, IO.SIn.init]
  peek := by
    rintro rem avail s n s' v ⟨hR, _⟩ hn hg i hi
    obtain ⟨s2, h1, h2, h3, h4⟩ := IO.getPtr_inv hR n hn hM
    have hg : IO.getPtr IO.fullReads s n = some (s', v) := hg
    have he : s2 = s' ∧ s2.view = v := by
      have := h1.symm.trans hg
      cases this
      exact ⟨rfl, rfl⟩
    obtain ⟨rfl, rfl⟩ := he
    rw [IO.view_length h2.fits] at hi
    simp only [peekStream, IO.SIn.view]
    rw [List.getElem?_take_of_lt hi, List.getElem?_drop]

end Verif.PBundle
