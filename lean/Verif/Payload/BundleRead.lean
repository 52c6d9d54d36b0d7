import Verif.Payload.Bundle
import Verif.Bundle.Props
/-!
# Reading a bundle through the proxy
-/

namespace Verif.PBundle
open Verif Verif.JsonDrv
open Verif.Bundle (Input St BEv Serves Lines)

variable {σ : Type} {I : Input σ} {M : Nat} {R : Bytes → Nat → σ → Prop}

/-! ## Where the input is after the header -/

theorem runTo_run (I : Input σ) (lineFuel : Nat) : ∀ (fuel : Nat) (s : σ) (st : St),
    Bundle.run I lineFuel fuel s st = (runTo I lineFuel fuel s st).map (·.2) := by
  intro fuel
  induction fuel with
  | zero => intro s st; rfl
  | succ fuel ih =>
    intro s st
    rw [Bundle.run, runTo]
    by_cases h : st = .stop
    · rw [if_pos h, if_pos h]; rfl
    · rw [if_neg h, if_neg h]
      cases Bundle.step I lineFuel s st with
      | none => rfl
      | some p =>
        obtain ⟨s', st', es⟩ := p
        dsimp only
        rw [ih]
        cases runTo I lineFuel fuel s' st' <;> rfl

theorem readHeader_deserialize (fo : FloatOps) (stale : Nat → Bool) (I : Input σ) (fuel : Nat) (s : σ) :
    Bundle.deserialize fo stale I fuel s = (readHeader fo stale I fuel s).map (·.2) := by
  rw [Bundle.deserialize, readHeader, runTo_run]
  cases runTo I fuel fuel s .start <;> rfl

/-- What is left is an end of what there was. -/
def Left (R : Bytes → Nat → σ → Prop) (rem : Bytes) (P : Bytes → Prop) (s : σ) : Prop :=
  ∃ pre rem' avail', rem = pre ++ rem' ∧ R rem' avail' s ∧ P rem'

theorem Left.trans {a b : Bytes} {P : Bytes → Prop} {s : σ} (h : Left R b P s) (he : ∃ x, a = x ++ b) : Left R a P s := by
  obtain ⟨pre, rem', av, h1, h2, h3⟩ := h
  obtain ⟨x, rfl⟩ := he
  exact ⟨x ++ pre, rem', av, by rw [h1, List.append_assoc], h2, h3⟩

theorem readKey_left (hI : Serves I M R) {lineFuel : Nat} : ∀ (fuel : Nat) (s : σ) (rem : Bytes) (avail : Nat)
    (s' : σ) (st : St) (es : List BEv), R rem avail s → rem.length + 4096 ≤ M → rem.length < lineFuel →
      Bundle.readKey I lineFuel fuel s = some (s', st, es) →
      Left R rem (fun r => st = .endMap → 10 ∉ r) s' ∧ (st = .endMap ∨ ∃ raw, st = .value raw) := by
  intro fuel
  induction fuel with
  | zero => intro s rem avail s' st es _ _ _ h; cases h
  | succ fuel ih =>
    intro s rem avail s' st es hR hM hlf h
    obtain ⟨s1, av, r, h3, h4, h5⟩ := Bundle.readLine_spec hI lineFuel s rem avail 0 0 hR (by omega) (by omega) (by simp)
      (by omega) (by omega) hM (by omega)
    rw [Bundle.readKey, h3] at h
    rcases h5 with ⟨h5, rfl, h6⟩ | ⟨h5, rfl⟩
    · dsimp only at h
      obtain ⟨s2, h7, h8⟩ := hI.release h4 h6
      rw [h7] at h
      dsimp only at h
      generalize hk : (rem.takeWhile (· ≠ 10)).length + 1 = k at h8
      have hdr : ∃ x, rem = x ++ rem.drop k := ⟨rem.take k, (List.take_append_drop _ _).symm⟩
      have hl : (rem.drop k).length ≤ rem.length := by simp
      have hrec : ∀ {s' st es}, Bundle.readKey I lineFuel fuel s2 = some (s', st, es) →
          Left R rem (fun r => st = .endMap → 10 ∉ r) s' ∧ (st = .endMap ∨ ∃ raw, st = .value raw) := fun h => by
        obtain ⟨h9, h10⟩ := ih s2 _ _ _ _ _ h8 (by omega) (by omega) h
        exact ⟨h9.trans hdr, h10⟩
      split at h
      · exact hrec h
      · split at h
        · exact hrec h
        · cases h
          obtain ⟨x, hx⟩ := hdr
          exact ⟨⟨x, _, _, hx, h8, nofun⟩, .inr ⟨_, rfl⟩⟩
    · cases h
      exact ⟨⟨[], rem, av, rfl, h4, fun _ => h5⟩, .inl rfl⟩

/-- States after the last line. -/
def Done (st : St) : Prop := st = .endMap ∨ st = .end ∨ st = .stop

theorem runTo_left (hI : Serves I M R) {lineFuel : Nat} : ∀ (fuel : Nat) (s : σ) (st : St) (rem : Bytes) (avail : Nat)
    (s' : σ) (es : List BEv), R rem avail s → (Done st → 10 ∉ rem) → rem.length + 4096 ≤ M → rem.length < lineFuel →
      runTo I lineFuel fuel s st = some (s', es) → Left R rem (fun r => 10 ∉ r) s' := by
  intro fuel
  induction fuel with
  | zero => intro s st rem avail s' es _ _ _ _ h; cases h
  | succ fuel ih =>
    intro s st rem avail s' es hR hd hM hlf h
    rw [runTo] at h
    by_cases hst : st = .stop
    · rw [if_pos hst] at h
      cases h
      exact ⟨[], rem, avail, rfl, hR, hd (.inr (.inr hst))⟩
    · rw [if_neg hst] at h
      cases hs : Bundle.step I lineFuel s st with
      | none => rw [hs] at h; cases h
      | some p =>
        obtain ⟨s1, st1, es1⟩ := p
        rw [hs] at h
        dsimp only at h
        obtain ⟨r, hr, hr2⟩ := Option.map_eq_some_iff.1 h
        obtain ⟨s2, es2⟩ := r
        cases hr2
        have key : ∀ {rem' avail'}, (∃ x, rem = x ++ rem') → R rem' avail' s1 → (Done st1 → 10 ∉ rem') →
            Left R rem (fun r => 10 ∉ r) s2 := by
          intro rem' avail' hx hR' hd'
          have hlen : rem'.length ≤ rem.length := by obtain ⟨x, rfl⟩ := hx; simp
          exact (ih s1 st1 rem' avail' s2 es2 hR' hd' (by omega) (by omega) hr).trans hx
        have same : s1 = s → (Done st1 → Done st) → Left R rem (fun r => 10 ∉ r) s2 := by
          rintro rfl hdd
          exact key ⟨[], rfl⟩ hR fun h => hd (hdd h)
        cases st with
        | start =>
          obtain ⟨s3, v, h1, h2, h3, h4, _⟩ := hI.get (n := 0) hR (by omega)
          rw [Bundle.step, h1] at hs
          cases v with
          | nil =>
            cases hs
            have : rem = [] := by
              rcases h4 with h4 | h4
              · simp at h4
              · exact h4.symm
            subst this
            exact key ⟨[], rfl⟩ h2 fun _ => nofun
          | cons b v =>
            cases hs
            exact key ⟨[], rfl⟩ h2 (by rintro (h | h | h) <;> cases h)
        | beginMap => cases hs; exact same rfl (by rintro (h | h | h) <;> cases h)
        | key =>
          obtain ⟨⟨pre, rem', av, h1, h2, h3⟩, h4⟩ := readKey_left hI lineFuel s rem avail s1 st1 es1 hR hM hlf hs
          refine key ⟨pre, h1⟩ h2 fun h => ?_
          rcases h4 with h4 | ⟨raw, h4⟩
          · exact h3 h4
          · subst h4
            rcases h with h | h | h <;> cases h
        | value raw =>
          rw [Bundle.step] at hs
          split at hs <;> cases hs
          · exact same rfl (by rintro (h | h | h) <;> cases h)
          · exact same rfl (by rintro (h | h | h) <;> cases h)
        | list ts =>
          cases ts with
          | nil => cases hs; exact same rfl (by rintro (h | h | h) <;> cases h)
          | cons t ts => cases hs; exact same rfl (by rintro (h | h | h) <;> cases h)
        | endMap => cases hs; exact same rfl fun _ => .inl rfl
        | «end» => cases hs; exact same rfl fun _ => .inr (.inl rfl)
        | stop => exact absurd rfl hst

/-- Reading a header from an input also says where the input is. -/
theorem readHeader_spec (fo : FloatOps) (stale : Nat → Bool) (hI : Serves I M R) {s : σ} {content rest : Bytes}
    {ls : List Bytes} (hR : R content 0 s) (hl : Lines content ls rest) (hM : content.length + 4096 ≤ M) (hne : content ≠ []) :
    ∃ m N, Bundle.Describes fo (Bundle.allFields ls) m ∧ ∀ fuel ≥ N, ∃ s', readHeader fo stale I fuel s = some (s', .ok (.map m)) ∧
      Left R content (fun r => 10 ∉ r) s' := by
  obtain ⟨v, h1, h2⟩ := Bundle.deserialize_spec fo stale hI hR hl hM
  rw [if_neg hne] at h2
  obtain ⟨m, rfl, hd⟩ := h2
  refine ⟨m, content.length + Bundle.cost (Bundle.allFields ls) + 2, hd, fun fuel hf => ?_⟩
  have h3 := h1 fuel hf
  rw [readHeader_deserialize] at h3
  obtain ⟨⟨s', r⟩, h4, h5⟩ := Option.map_eq_some_iff.1 h3
  dsimp only at h5
  subst h5
  refine ⟨s', h4, ?_⟩
  rw [readHeader] at h4
  cases hr : runTo I fuel fuel s .start with
  | none => rw [hr] at h4; cases h4
  | some p =>
    obtain ⟨s2, es⟩ := p
    rw [hr] at h4
    have : s2 = s' := congrArg Prod.fst (Option.some.inj h4)
    subst this
    exact runTo_left hI fuel s .start content 0 s2 es hR (by rintro (h | h | h) <;> cases h) hM (by omega) hr

/-! ## The proxy -/

theorem upTo_nul {h : Bytes} (h0 : 0 ∉ h) (t : Bytes) : (h ++ 0 :: t).takeWhile (· ≠ 0) = h := by
  induction h with
  | nil => simp
  | cons x l ih =>
    simp only [List.mem_cons, not_or] at h0
    have : decide (x ≠ 0) = true := by simpa using fun e => h0.1 e.symm
    simp only [List.cons_append, List.takeWhile, this]
    rw [ih h0.2]

theorem prefix_nul {v rem tail : Bytes} (hp : v <+: rem ++ 0 :: tail) (hl : rem.length < v.length) : ∃ w, v = rem ++ 0 :: w := by
  obtain ⟨x, hx⟩ := hp
  induction rem generalizing v with
  | nil =>
    cases v with
    | nil => simp at hl
    | cons b v => cases hx; exact ⟨v, rfl⟩
  | cons r rem ih =>
    cases v with
    | nil => simp at hl
    | cons b v =>
      simp only [List.cons_append, List.cons.injEq] at hx
      obtain ⟨w, hw⟩ := ih (v := v) (by simpa using hl) hx.2
      exact ⟨w, by rw [hw, hx.1]; rfl⟩

/-- What the proxy serves: the bytes before the NUL, once the input has shown the NUL. -/
def ProxyR (R : Bytes → Nat → σ → Prop) (s0 : σ) (h tail rem : Bytes) (avail : Nat) (p : σ × Nat) : Prop :=
  (p = (s0, 0) ∧ rem = h ∧ avail = 0) ∨
    ∃ a, R (rem ++ 0 :: tail) a p.1 ∧ p.2 = rem.length ∧ rem.length < a ∧ avail ≤ rem.length ∧ 0 ∉ rem

/-- What is needed of the input under the proxy: the first request shows the NUL. -/
structure Shows (I : Input σ) (M : Nat) (R : Bytes → Nat → σ → Prop) (peek : σ → Nat → Option UInt8) (s0 : σ) (h tail : Bytes) :
    Prop where
  serves : Serves I M R
  start : R (h ++ 0 :: tail) 0 s0
  first : ∀ n ≤ M, ∀ s' v, I.get s0 n = some (s', v) → h.length < v.length
  release : I.release s0 0 = some s0
  peek : ∀ {rem avail s n s' v}, R rem avail s → n ≤ M → I.get s n = some (s', v) → ∀ i < v.length, peek s' i = v[i]?

theorem proxy_serves {peek : σ → Nat → Option UInt8} {s0 : σ} {h tail : Bytes} (hs : Shows I M R peek s0 h tail) (h0 : 0 ∉ h) :
    Serves (proxy I peek) M (ProxyR R s0 h tail) where
  get := by
    rintro rem avail ⟨s, sc⟩ n hR hn
    have step : ∀ {a}, R (rem ++ 0 :: tail) a s → 0 ∉ rem → (sc = rem.length ∨ sc = 0) →
        (∀ s' v, I.get s n = some (s', v) → rem.length < v.length) →
        ∃ s' , (proxy I peek).get (s, sc) n = some (s', rem) ∧ ProxyR R s0 h tail rem rem.length s' := by
      intro a hRa h0r hsc hlt
      obtain ⟨s', v, h1, h2, h3, h4, h5⟩ := hs.serves.get hRa hn
      have hl := hlt s' v h1
      have hv : ∃ w, v = rem ++ 0 :: w := by
        exact prefix_nul h3 hl
      obtain ⟨w, rfl⟩ := hv
      have hp := hs.peek hRa hn h1
      obtain ⟨b, u, hbu⟩ : ∃ b u, rem ++ 0 :: w = b :: u := by
        cases rem with
        | nil => exact ⟨0, w, rfl⟩
        | cons x r => exact ⟨x, _, rfl⟩
      refine ⟨(s', rem.length), ?_, .inr ⟨_, h2, rfl, hl, Nat.le_refl _, h0r⟩⟩
      have hget : (proxy I peek).get (s, sc) n = match peek s' sc with
          | none => none
          | some c =>
            let scanned := if c ≠ 0 then sc + (((rem ++ 0 :: w).drop sc).takeWhile (· ≠ 0)).length else sc
            some ((s', scanned), (rem ++ 0 :: w).take scanned) := by
        simp only [proxy, h1]
        rw [hbu]
        dsimp only
        cases peek s' sc <;> rfl
      rw [hget]
      have hend : ∀ k, k = rem.length → some ((s', k), (rem ++ 0 :: w).take k) = some ((s', rem.length), rem) := by
        rintro k rfl; rw [List.take_left']; rfl
      rcases hsc with rfl | rfl
      · rw [hp _ hl]
        have : (rem ++ 0 :: w)[rem.length]? = some 0 := by simp
        rw [this]
        dsimp only
        rw [if_neg (by simp)]
        exact hend _ rfl
      · rw [hp 0 (by omega)]
        cases rem with
        | nil => exact hend 0 rfl
        | cons x r =>
          have hx : x ≠ 0 := fun e => h0r (by simp [e])
          show (let scanned := if x ≠ 0 then 0 + (((x :: r ++ 0 :: w).drop 0).takeWhile (· ≠ 0)).length else 0
            some ((s', scanned), (x :: r ++ 0 :: w).take scanned)) = _
          dsimp only
          rw [if_pos hx, List.drop_zero, upTo_nul h0r]
          exact hend _ (by simp)
    rcases hR with ⟨he, rfl, rfl⟩ | ⟨a, h1, h2, h3, h4, h5⟩
    · cases he
      obtain ⟨s', h6, h7⟩ := step hs.start h0 (.inr rfl) (hs.first n hn)
      exact ⟨s', rem, h6, h7, List.prefix_rfl, .inr rfl, Nat.zero_le _⟩
    · dsimp only at h1 h2
      obtain ⟨s', h6, h7⟩ := step h1 h5 (.inl h2) fun s' v hg => by
        obtain ⟨s'', v', h8, _, _, _, h9⟩ := hs.serves.get h1 hn
        rw [hg] at h8
        cases h8
        omega
      exact ⟨s', rem, h6, h7, List.prefix_rfl, .inr rfl, h4⟩
  release := by
    rintro rem avail ⟨s, sc⟩ n hR hn
    rcases hR with ⟨he, rfl, rfl⟩ | ⟨a, h1, h2, h3, h4, h5⟩
    · cases he
      obtain rfl : n = 0 := by omega
      refine ⟨(s0, 0), ?_, .inl ⟨rfl, rfl, rfl⟩⟩
      simp only [proxy, hs.release, Nat.sub_zero]
    · dsimp only at h1 h2
      subst h2
      obtain ⟨s', h6, h7⟩ := hs.serves.release h1 (n := n) (by omega)
      rw [List.drop_append_of_le_length (by omega)] at h7
      refine ⟨(s', rem.length - n), ?_, .inr ⟨_, h7, ?_, ?_, ?_, fun h => h5 (List.mem_of_mem_drop h)⟩⟩
      · simp only [proxy, h6]
      · simp
      · simp only [List.length_drop]; omega
      · simp only [List.length_drop]; omega

/-! ## Up to the NUL -/

theorem skipTo_spec (hI : Serves I M R) (hM : 1 ≤ M) {tail : Bytes} : ∀ (fuel : Nat) (s : σ) (rem : Bytes) (a : Nat),
    R (rem ++ 0 :: tail) a s → 0 ∉ rem → rem.length < fuel → ∃ s' a', skipTo I fuel s = some s' ∧ R tail a' s' := by
  intro fuel
  induction fuel with
  | zero => intro s rem a _ _ h; omega
  | succ fuel ih =>
    intro s rem a hR h0 hf
    obtain ⟨s1, v, h1, h2, h3, h4, _⟩ := hI.get hR hM
    have hv1 : 1 ≤ v.length := by
      rcases h4 with h4 | h4
      · omega
      · rw [h4]; simp only [List.length_append, List.length_cons]; omega
    rw [skipTo, h1]
    obtain ⟨b, u, rfl⟩ : ∃ b u, v = b :: u := by
      cases v with
      | nil => simp at hv1
      | cons b u => exact ⟨b, u, rfl⟩
    dsimp only
    generalize b :: u = v at *
    obtain ⟨x, hx⟩ := h3
    by_cases hl : v.length ≤ rem.length
    · have hvt : v = rem.take v.length := by
        have := congrArg (List.take v.length) hx
        rw [List.take_left', List.take_append_of_le_length hl] at this
        · exact this
        · rfl
      have hno : 0 ∉ v := fun h => h0 (by rw [hvt] at h; exact List.mem_of_mem_take h)
      rw [if_neg hno]
      obtain ⟨s2, h5, h6⟩ := hI.release h2 (Nat.le_refl _)
      rw [h5]
      rw [List.drop_append_of_le_length hl] at h6
      exact ih s2 _ _ h6 (fun h => h0 (List.mem_of_mem_drop h)) (by simp; omega)
    · obtain ⟨w, rfl⟩ : ∃ w, v = rem ++ 0 :: w := prefix_nul ⟨x, hx⟩ (by omega)
      rw [if_pos (by simp), upTo_nul h0]
      obtain ⟨s2, h5, h6⟩ := hI.release h2 (n := rem.length + 1) (by simp)
      refine ⟨s2, (rem ++ 0 :: w).length - (rem.length + 1), h5, ?_⟩
      have : (rem ++ 0 :: tail).drop (rem.length + 1) = tail := by rw [List.drop_append]; simp
      rw [this] at h6
      exact h6

end Verif.PBundle
