import Verif.Json.EmitVal
import Verif.Blob.Props
/-!
# JSON round trip, pretty printing, string escaping, concatenation (C01, C02, C04, C06)
-/

namespace Verif.JsonTok
open Verif.JsonDrv Verif.Build Verif.JsonEmit

/-! ## The document handler stays at the bottom -/

/-- The bottom handler is the document's. -/
def Rooted (fs : List Frame) : Prop := ∃ v, fs.getLast? = some (.root v true)

theorem Rooted.ne {fs : List Frame} (h : Rooted fs) : fs ≠ [] := by
  rintro rfl; obtain ⟨v, h⟩ := h; simp at h

theorem setTop_rooted {ft : UInt64 → Bytes} {s s' : BState} {v : Val} (h : Rooted s.frames)
    (hf : setTop ft s v = .ok s') : Rooted s'.frames := by
  unfold setTop at hf
  cases hs : s.frames with
  | nil => exact absurd hs h.ne
  | cons f rest =>
    rw [hs] at hf h
    simp only [Out.bind_eq_ok] at hf
    obtain ⟨⟨f', fin⟩, h1, h2⟩ := hf
    simp only [Out.pure_eq, Out.ok.injEq] at h2
    cases rest with
    | nil =>
      obtain ⟨w, h⟩ := h
      simp at h; subst h
      simp [setVal] at h1
      obtain ⟨rfl, rfl⟩ := h1
      subst h2
      exact ⟨v, rfl⟩
    | cons g r =>
      obtain ⟨w, h⟩ := h
      simp at h
      subst h2
      split <;> exact ⟨w, by simp [h]⟩

theorem finish_rooted {ft : UInt64 → Bytes} {s s' : BState} {f : Frame} {rest : List Frame}
    (hs : s.frames = f :: rest) (hr : ∀ v, f ≠ .root v true) (h : Rooted s.frames)
    (hf : finish ft s = .ok s') : Rooted s'.frames := by
  unfold finish at hf
  rw [hs] at hf h
  cases rest with
  | nil =>
    obtain ⟨w, h⟩ := h
    simp at h
    exact absurd h (hr w)
  | cons g r =>
    refine setTop_rooted (s := { s with frames := g :: r }) ?_ hf
    obtain ⟨w, h⟩ := h
    exact ⟨w, by simpa using h⟩

theorem event_rooted {ft : UInt64 → Bytes} {s s' : BState} {e : PEv} (h : Rooted s.frames) (he : e ≠ .endDoc)
    (hf : event ft s e = .ok s') : Rooted s'.frames := by
  unfold event at hf
  cases hs : s.frames with
  | nil => exact absurd hs h.ne
  | cons f rest =>
    rw [hs] at hf
    cases e with
    | endDoc => contradiction
    | beginDoc =>
      rw [hs] at h
      simp only at hf
      cases f with
      | root v b =>
        simp at hf; subst hf
        obtain ⟨w, h⟩ := h
        cases rest with
        | nil => exact ⟨v, rfl⟩
        | cons g r => exact ⟨w, by simpa using h⟩
      | map m k => simp at hf; subst hf; rw [hs]; exact h
      | list xs => simp at hf; subst hf; rw [hs]; exact h
    | beginMap =>
      simp at hf; subst hf
      rw [hs] at h
      obtain ⟨w, h⟩ := h
      exact ⟨w, by simpa using h⟩
    | beginList =>
      simp at hf; subst hf
      rw [hs] at h
      obtain ⟨w, h⟩ := h
      exact ⟨w, by simpa using h⟩
    | endMap =>
      cases f with
      | map m k => exact finish_rooted hs (by simp) h hf
      | root v b => cases hf
      | list xs => cases hf
    | endList =>
      cases f with
      | list xs => exact finish_rooted hs (by simp) h hf
      | root v b => cases hf
      | map m k => cases hf
    | scalar v => exact setTop_rooted h hf

theorem callbackEvent_ne {fo : FloatOps} {e : JEv} {x : PEv} (h : callbackEvent fo e = .ok x) : x ≠ .endDoc := by
  cases e with
  | str s =>
    simp only [callbackEvent] at h
    split at h
    · simp only [Out.bind_eq_ok] at h
      obtain ⟨b, _, h⟩ := h
      simp at h; subst h; simp
    · simp at h; subst h; simp
  | _ => simp [callbackEvent] at h; subst h; simp

theorem callbacks_rooted {fo : FloatOps} {s s' : BState} {evs : List JEv} (h : Rooted s.frames)
    (hf : callbacks fo s evs = .ok s') : Rooted s'.frames := by
  induction evs generalizing s with
  | nil => simp [callbacks] at hf; subst hf; exact h
  | cons e es ih =>
    simp only [callbacks, Out.bind_eq_ok] at hf
    obtain ⟨x, h1, s1, h2, h3⟩ := hf
    exact ih (event_rooted h (callbackEvent_ne h1) h2) h3

/-! ## The driver on accepted characters -/

theorem feed_cont {fo : FloatOps} {b0 : BState} {p : JP} {c : UInt8} {t : Tok} {e : List JEv} {b' : BState}
    (hi : Inv fo b0 p) (hc : charStep p.tok c = .cont t e) (hb : callbacks fo p.build e = .ok b')
    (hl : p.status = .ok ∨ e ≠ []) (hn : 2 ≤ t.stack.length) :
    ∃ p', feed fo p c = .ok p' ∧ Inv fo b0 p' ∧ p'.tok = t ∧ p'.status = .ok ∧ p'.build = b' := by
  have hst : (if e ≠ [] ∧ p.status = .begin then Status.ok else p.status) = .ok := by
    rcases hl with h | h
    · simp [h]
    · rcases hi.live with h' | h' <;> simp [h, h']
  have hR := step_R c hi.shape
  rw [hc] at hR
  have hd := Shape_depth hR.1
  have hdep : p.depth + (e.map depthDelta).sum = sumDelta (p.log ++ e) := by
    rw [sumDelta_append, hi.depth]; rfl
  have hf : ∃ p', feed fo p c = .ok p' ∧ p'.tok = t ∧ p'.status = .ok ∧ p'.build = b' := by
    unfold feed
    simp only [hc, hb, Out.bind_ok, Out.pure_eq, hst, hdep]
    rw [if_neg (by omega)]
    exact ⟨_, rfl, rfl, rfl, rfl⟩
  obtain ⟨p', h1, h2, h3, h4⟩ := hf
  refine ⟨p', h1, ?_, h2, h3, h4⟩
  rcases feed_inv hi h1 with h | h | h
  · exact h
  · rw [h.ended] at h3; cases h3
  · rw [h] at h3; cases h3

theorem feed_last {fo : FloatOps} {b0 : BState} {p : JP} {c : UInt8} {e : List JEv} {b' : BState}
    (hi : Inv fo b0 p) (hc : charStep p.tok c = .cont (T OK [.done]) e) (hb : callbacks fo p.build e = .ok b')
    (hl : p.status = .ok) :
    ∃ p', feed fo p c = .ok p' ∧ p'.status = .end ∧ p'.build = b' := by
  have hR := step_R c hi.shape
  rw [hc] at hR
  have hd := Shape_depth hR.1
  simp at hd
  have hdep : p.depth + (e.map depthDelta).sum = sumDelta (p.log ++ e) := by
    rw [sumDelta_append, hi.depth]; rfl
  unfold feed
  simp only [hc, hb, Out.bind_ok, Out.pure_eq, hdep]
  rw [if_pos ⟨by omega, by simp [hl]⟩, if_pos (by rfl)]
  exact ⟨_, rfl, rfl, rfl⟩

theorem run_steps {fo : FloatOps} {b0 : BState} {n : Nat} {t t' : Tok} {a : Bytes} {e : List JEv}
    (h : Steps n t a t' e) (hn : 2 ≤ n) :
    ∀ (p : JP) (b' : BState) (rest : Bytes), Inv fo b0 p → p.tok = t → p.status = .ok → Rooted p.build.frames →
    callbacks fo p.build e = .ok b' →
    ∃ p', parseBlock fo p (a ++ rest) = parseBlock fo p' rest ∧ Inv fo b0 p' ∧ p'.tok = t' ∧
      p'.status = .ok ∧ p'.build = b' := by
  induction h with
  | nil =>
    intro p b' rest hi ht hs hr hc
    simp [callbacks] at hc
    exact ⟨p, rfl, hi, ht, hs, hc⟩
  | @cons t c t1 e1 cs t2 e2 hc hl _ ih =>
    intro p b' rest hi ht hs hr hcb
    rw [callbacks_append] at hcb
    simp only [Out.bind_eq_ok] at hcb
    obtain ⟨s1, h1, h2⟩ := hcb
    subst ht
    obtain ⟨p1, f1, f2, f3, f4, f5⟩ := feed_cont hi hc h1 (.inl hs) (by omega)
    have hr1 := callbacks_rooted hr h1
    subst f5
    obtain ⟨p', g1, g⟩ := ih p1 b' rest f2 f3 f4 hr1 h2
    refine ⟨p', ?_, g⟩
    rw [List.cons_append, parseBlock, if_pos (by simp [running, hs, hr.ne]), f1]
    exact g1

theorem events_split {ft : UInt64 → Bytes} {s s' : BState} {a b : List PEv} (h : events ft s (a ++ b) = .ok s') :
    ∃ m, events ft s a = .ok m ∧ events ft m b = .ok s' := by
  rw [events_append] at h
  simpa [Out.bind_eq_ok] using h

/-- Reading a container at the start of a document. -/
theorem read_doc {fo : FloatOps} {o c : UInt8} {t : Tok} {stk : List Mode} {b rest : Bytes} {pes : List PEv}
    {oe ce : JEv} {po pc : PEv} {b' : BState}
    (ho : charStep (T GO [.done]) o = .cont t [oe]) (hlen : stk.length = 2) (ht : t.stack.length = 2)
    (hpo : callbackEvent fo oe = .ok po) (hpc : callbackEvent fo ce = .ok pc)
    (h : ReadsRest fo c stk [.done] t b pes ce)
    (he : events fo.fltText started.build (po :: (pes ++ [pc])) = .ok b') :
    ∃ p', parseBlock fo started (o :: b ++ [c] ++ rest) = .ok (p', rest) ∧ p'.status = .end ∧ p'.build = b' := by
  obtain ⟨t', e0, e1, pe0, pe1, h1, h2, h3, rfl, h4⟩ := h
  have he' : events fo.fltText started.build ([po] ++ (pe0 ++ (pe1 ++ [pc]))) = .ok b' := by simpa using he
  obtain ⟨s1, k1, he'⟩ := events_split he'
  obtain ⟨s2, k2, k3⟩ := events_split he'
  have hr0 : Rooted started.build.frames := ⟨.null, rfl⟩
  have hcb1 : callbacks fo started.build [oe] = .ok s1 := by
    rw [callbacks_cbs (pes := [po]) (by simp [cbs, hpo])]; exact k1
  obtain ⟨p1, f1, f2, f3, f4, f5⟩ := feed_cont (started_inv fo) ho hcb1 (.inr (by simp)) (by omega)
  have hr1 := callbacks_rooted hr0 hcb1
  subst f5
  obtain ⟨p2, g1, g2, g3, g4, g5⟩ := run_steps h1 (by omega) p1 s2 ([c] ++ rest) f2 f3 f4 hr1
    (by rw [callbacks_cbs h2]; exact k2)
  have hr2 := callbacks_rooted hr1 (by rw [callbacks_cbs h2]; exact k2)
  subst g5; subst g3
  obtain ⟨p3, i1, i2, i3⟩ := feed_last g2 h4 (b' := b')
    (by rw [callbacks_cbs (cbs_append h3 (q := [pc]) (by simp [cbs, hpc]))]; exact k3) g4
  refine ⟨p3, ?_, i2, i3⟩
  have e : o :: b ++ [c] ++ rest = o :: (b ++ ([c] ++ rest)) := by simp
  rw [e, parseBlock, if_pos (by simp [running, started, JP.init]), f1, Out.bind_ok, g1]
  simp only [List.cons_append, List.nil_append]
  rw [parseBlock, if_pos (by simp [running, g4, hr2.ne]), i1, Out.bind_ok]
  cases rest with
  | nil => rfl
  | cons x xs => rw [parseBlock, if_neg (by simp [running, i2])]

mutual
theorem readBack_wf (ff : FloatFmt) (fo : FloatOps) (p : Nat) : ∀ v : Val, v.WF → (readBack ff fo p v).WF
  | .null, _ => by simp [readBack, Val.WF]
  | .bool _, _ => by simp [readBack, Val.WF]
  | .int i, _ => by simp only [readBack]; split <;> simp [Val.WF]
  | .uint _, _ => by simp [readBack, Val.WF]
  | .flt b, _ => by simp only [readBack]; split <;> simp [Val.WF]
  | .str _, _ => by simp [readBack, Val.WF]
  | .blob _, _ => by simp [readBack, Val.WF]
  | .list xs, h => by
    simp only [readBack, Val.WF] at h ⊢; exact readBackList_wf ff fo p xs h
  | .map m, h => by
    simp only [readBack, Val.WF] at h ⊢
    exact ⟨readBackMap_sorted ff fo p m h.1, readBackMap_wf ff fo p m h.2⟩
theorem readBackList_wf (ff : FloatFmt) (fo : FloatOps) (p : Nat) : ∀ xs : List Val, WFList xs →
    WFList (readBackList ff fo p xs)
  | [], _ => by simp [readBackList, WFList]
  | x :: xs, h => by
    simp only [readBackList, WFList] at h ⊢
    exact ⟨readBack_wf ff fo p x h.1, readBackList_wf ff fo p xs h.2⟩
theorem readBackMap_wf (ff : FloatFmt) (fo : FloatOps) (p : Nat) : ∀ m : List (Bytes × Val), WFMap m →
    WFMap (readBackMap ff fo p m)
  | [], _ => by simp [readBackMap, WFMap]
  | (k, x) :: m, h => by
    simp only [readBackMap, WFMap] at h ⊢
    exact ⟨readBack_wf ff fo p x h.1, readBackMap_wf ff fo p m h.2⟩
theorem readBackMap_sorted (ff : FloatFmt) (fo : FloatOps) (p : Nat) : ∀ m : List (Bytes × Val), AMap.Sorted m →
    AMap.Sorted (readBackMap ff fo p m)
  | [], _ => by simp [readBackMap, AMap.Sorted]
  | (k, x) :: m, h => by
    simp only [readBackMap, AMap.Sorted] at h ⊢
    refine ⟨?_, readBackMap_sorted ff fo p m h.2⟩
    have : ∀ (m : List (Bytes × Val)), AMap.above k m → AMap.above k (readBackMap ff fo p m) := by
      intro m hm
      induction m with
      | nil => simp [readBackMap, AMap.above]
      | cons y ys ih =>
        obtain ⟨k', x'⟩ := y
        simp only [AMap.above, readBackMap, List.mem_cons, forall_eq_or_imp] at hm ih ⊢
        exact ⟨hm.1, ih hm.2⟩
    exact this m h.1
end

/-- The whole reading of a serialised document, whatever the order of the keys in its maps. -/
theorem read_container_raw {ff : FloatFmt} {fo : FloatOps} (hl : FloatLaw ff fo) (c : Cfg) (v : Val)
    (hc : IsContainer v) (hp : Plain v) (b rest : Bytes) (hb : body ff c 0 v = .ok b) :
    ∃ p', parseBlock fo started (b ++ rest) = .ok (p', rest) ∧ p'.status = .end ∧
      p'.build = ⟨[.root (treeOf (readBack ff fo c.precision v)).value true], .null, false⟩ := by
  have hev : events fo.fltText started.build (treeOf (readBack ff fo c.precision v)).events =
      .ok ⟨[.root (treeOf (readBack ff fo c.precision v)).value true], .null, false⟩ := by
    have := tree_events fo.fltText [.root .null true] .null false (by simp [WantsValue])
      (treeOf (readBack ff fo c.precision v))
    simp only [receive] at this
    exact this
  cases v with
  | list xs =>
    simp only [Plain] at hp
    simp only [body] at hb
    cases hx : bodyList ff c 0 true xs with
    | throw e => rw [hx] at hb; cases hb
    | ub => rw [hx] at hb; cases hb
    | ok bx =>
      rw [hx] at hb
      simp only [Out.map_ok, Out.ok.injEq] at hb; subst hb
      have h := reads_list hl c xs 0 bx hx hp [.done]
      have e : (0x5b :: bx ++ ind c 0 ++ [0x5d] ++ rest : Bytes) = 0x5b :: (bx ++ ind c 0) ++ [0x5d] ++ rest := by simp
      rw [e]
      refine read_doc (open_list [.done] GO (by simp)) rfl rfl rfl rfl h ?_
      simpa [readBack, treeOf, ETree.events] using hev
  | map m =>
    simp only [Plain] at hp
    simp only [body] at hb
    cases hx : bodyMap ff c 0 true m with
    | throw e => rw [hx] at hb; cases hb
    | ub => rw [hx] at hb; cases hb
    | ok bx =>
      rw [hx] at hb
      simp only [Out.map_ok, Out.ok.injEq] at hb; subst hb
      have h := reads_map hl c m 0 bx hx hp [.done]
      have e : (0x7b :: bx ++ ind c 0 ++ [0x7d] ++ rest : Bytes) = 0x7b :: (bx ++ ind c 0) ++ [0x7d] ++ rest := by simp
      rw [e]
      refine read_doc (stk := [.object, .done]) (open_map [.done] GO (by simp)) rfl rfl rfl rfl h ?_
      simpa [readBack, treeOf, ETree.events] using hev
  | _ => simp [IsContainer] at hc

/-- The whole reading of a serialised document. -/
theorem read_container {ff : FloatFmt} {fo : FloatOps} (hl : FloatLaw ff fo) (c : Cfg) (v : Val)
    (hc : IsContainer v) (hp : Plain v) (hw : v.WF) (b rest : Bytes) (hb : body ff c 0 v = .ok b) :
    ∃ p', parseBlock fo started (b ++ rest) = .ok (p', rest) ∧ p'.status = .end ∧
      p'.build = ⟨[.root (readBack ff fo c.precision v) true], .null, false⟩ := by
  have := read_container_raw hl c v hc hp b rest hb
  rwa [treeOf_value _ (readBack_wf ff fo _ v hw)] at this

/-! ## The properties -/

/-- C06.  A serialised document followed by any bytes, arriving in blocks cut anywhere, is
read as that document, and exactly its bytes are consumed. -/
theorem document_consumes_exactly (ff : FloatFmt) (fo : FloatOps) (hl : FloatLaw ff fo) (c : Cfg) (w : Nat → Nat)
    (v : Val) (hc : IsContainer v) (hp : Plain v) (hw : v.WF) (text : Bytes)
    (hs : serialize ff c w v = .ok text) (rest : Bytes) (blocks : List Bytes)
    (hb : ∀ b ∈ blocks, b ≠ []) (hf : blocks.flatten = text ++ rest) :
    (fun r => (r.1, r.2.flatten)) <$> deserialize fo blocks = .ok (readBack ff fo c.precision v, rest) := by
  rw [serialize_body] at hs
  obtain ⟨p', h1, h2, h3⟩ := read_container hl c v hc hp hw text rest hs
  have hpa := parse_parseAll fo started blocks hb
  rw [hf, parseAll, h1, Out.bind_ok] at hpa
  simp only [running, h2] at hpa
  simp at hpa
  rw [deserialize_eq]
  cases hq : parse fo started blocks with
  | throw e => rw [hq] at hpa; simp at hpa
  | ub => rw [hq] at hpa; simp at hpa
  | ok r =>
    rw [hq] at hpa
    simp at hpa
    obtain ⟨rfl, rfl⟩ := hpa
    simp only [Out.bind_ok, h2, h3]
    simp [event, finish, Frame.result]

/-- C01.  Serialising a list or map and reading the text back gives the same value, up to the
changes `readBack` lists. -/
theorem json_round_trip (ff : FloatFmt) (fo : FloatOps) (hl : FloatLaw ff fo) (c : Cfg) (w : Nat → Nat)
    (v : Val) (hc : IsContainer v) (hp : Plain v) (hw : v.WF) (text : Bytes)
    (hs : serialize ff c w v = .ok text) :
    (fun r => r.1) <$> deserialize fo [text] = .ok (readBack ff fo c.precision v) := by
  have hne : text ≠ [] := by
    rintro rfl
    rw [serialize_body] at hs
    cases v with
    | list xs => simp only [body] at hs; cases h : bodyList ff c 0 true xs <;> rw [h] at hs <;> simp at hs
    | map m => simp only [body] at hs; cases h : bodyMap ff c 0 true m <;> rw [h] at hs <;> simp at hs
    | _ => simp [IsContainer] at hc
  have := document_consumes_exactly ff fo hl c w v hc hp hw text hs [] [text] (by simpa using hne) (by simp)
  cases h : deserialize fo [text] <;> rw [h] at this <;> simp at this ⊢
  exact this.1

/-- C02.  Pretty printing, at whatever width, does not change the value read back. -/
theorem pretty_printing_neutral (ff : FloatFmt) (fo : FloatOps) (hl : FloatLaw ff fo) (c c' : Cfg)
    (hprec : c.precision = c'.precision) (w w' : Nat → Nat) (v : Val) (hc : IsContainer v) (hp : Plain v)
    (hw : v.WF) (t t' : Bytes) (hs : serialize ff c w v = .ok t) (hs' : serialize ff c' w' v = .ok t') :
    (fun r => r.1) <$> deserialize fo [t] = (fun r => r.1) <$> deserialize fo [t'] := by
  rw [json_round_trip ff fo hl c w v hc hp hw t hs, json_round_trip ff fo hl c' w' v hc hp hw t' hs', hprec]

mutual
theorem body_total (ff : FloatFmt) (c : Cfg) : ∀ (v : Val) (d : Nat), Plain v → Emittable c.strict v →
    ∃ b, body ff c d v = .ok b
  | .null, _, _, _ => ⟨_, rfl⟩
  | .bool true, _, _, _ => ⟨_, rfl⟩
  | .bool false, _, _, _ => ⟨_, rfl⟩
  | .int _, _, _, _ => ⟨_, rfl⟩
  | .uint _, _, _, _ => ⟨_, rfl⟩
  | .str _, _, _, _ => ⟨_, rfl⟩
  | .flt b, d, _, h => by
    simp only [Emittable] at h
    simp only [body, scalarText]
    split
    · rename_i hn
      cases hs : c.strict
      · simp
      · rw [h hs] at hn; cases hn
    · exact ⟨_, rfl⟩
  | .blob segs, d, hp, h => by
    simp only [Emittable] at h
    simp only [Plain] at hp
    have hlen : segs.flatten.length = (segs.map (·.length)).sum := by simp [List.length_flatten]
    have ht : Blob.totalLength (segs.map (·.length)) = segs.flatten.length := by
      rw [Blob.totalLength_eq _ (by omega), hlen]
    have hn : (UInt32.ofNat (Blob.totalLength (segs.map (·.length)))).toNat = segs.flatten.length := by
      rw [ht, UInt32.toNat_ofNat_of_lt']
      show _ < 2 ^ 32; omega
    obtain ⟨t, h1, h2⟩ := B64.encode_fits_partial segs (UInt32.ofNat (Blob.totalLength (segs.map (·.length)))) 0 hp
      hn.symm (by rw [hn]; exact h.2)
    have h1 : B64.encode segs 0 = .ok t := h1
    simp only [body, scalarText, h1, Out.bind_ok, h.1, if_pos h2]
    exact ⟨_, rfl⟩
  | .list xs, d, hp, h => by
    simp only [Emittable] at h
    simp only [Plain] at hp
    obtain ⟨b, hb⟩ := bodyList_total ff c xs d true hp h
    simp only [body, hb]
    exact ⟨_, rfl⟩
  | .map m, d, hp, h => by
    simp only [Emittable] at h
    simp only [Plain] at hp
    obtain ⟨b, hb⟩ := bodyMap_total ff c m d true hp h
    simp only [body, hb]
    exact ⟨_, rfl⟩
theorem bodyList_total (ff : FloatFmt) (c : Cfg) : ∀ (xs : List Val) (d : Nat) (f : Bool), PlainList xs →
    EmittableList c.strict xs → ∃ b, bodyList ff c d f xs = .ok b
  | [], _, _, _, _ => ⟨_, rfl⟩
  | x :: xs, d, f, hp, h => by
    simp only [EmittableList] at h
    simp only [PlainList] at hp
    obtain ⟨a, ha⟩ := body_total ff c x (d + 1) hp.1 h.1
    obtain ⟨b, hb⟩ := bodyList_total ff c xs d false hp.2 h.2
    simp only [bodyList, ha, hb]
    exact ⟨_, rfl⟩
theorem bodyMap_total (ff : FloatFmt) (c : Cfg) : ∀ (m : List (Bytes × Val)) (d : Nat) (f : Bool), PlainMap m →
    EmittableMap c.strict m → ∃ b, bodyMap ff c d f m = .ok b
  | [], _, _, _, _ => ⟨_, rfl⟩
  | (k, x) :: m, d, f, hp, h => by
    simp only [EmittableMap] at h
    simp only [PlainMap] at hp
    obtain ⟨a, ha⟩ := body_total ff c x (d + 1) hp.2.1 h.1
    obtain ⟨b, hb⟩ := bodyMap_total ff c m d false hp.2.2 h.2
    simp only [bodyMap, ha, hb]
    exact ⟨_, rfl⟩
end

/-- C01.  Every value the round trip speaks about is accepted by the emitter. -/
theorem serialize_succeeds (ff : FloatFmt) (c : Cfg) (w : Nat → Nat) (v : Val) (hp : Plain v)
    (he : Emittable c.strict v) : ∃ text, serialize ff c w v = .ok text := by
  rw [serialize_body]; exact body_total ff c v 0 hp he

/-! ### Non-vacuity: a concrete number format and document -/

/-- Floats printed as the number of their bit pattern followed by a point. -/
def ffDemo : FloatFmt := fun _ b => natDec b.toNat ++ [46]
/-- The matching `strtod`. -/
def foDemo : FloatOps := ⟨fun t => UInt64.ofNat (decVal 0 (spanDigits t).1), fun b => natDec b.toNat⟩

theorem spanDigits_point (a ws : Bytes) (h : (46 : UInt8) ∈ a) : (spanDigits (a ++ ws)).1 = (spanDigits a).1 := by
  induction a with
  | nil => simp at h
  | cons x xs ih =>
    simp only [List.cons_append, spanDigits]
    by_cases hx : isDigit x = true
    · have : (46 : UInt8) ≠ x := by rintro rfl; revert hx; decide
      simp only [hx, if_true]
      rw [ih (by simpa [this] using h)]
    · simp [hx]

theorem demo_law : FloatLaw ffDemo foDemo where
  shape p b _ := ⟨[], natDec b.toNat, [], [], by simp [ffDemo], .inl rfl, intPart_natDec _, by simp, .inl rfl⟩
  trail t ws ht _ := by
    obtain ⟨sg, ip, fp, ex, rfl, _⟩ := ht
    simp only [foDemo]
    rw [spanDigits_point _ ws (by simp)]

/-- {"a":[-1,2.,"q\"\n",blob],"b":{}} -/
def demoDoc : Val := .map [([97], .list [.int (-1), .flt 7, .str [113, 34, 10], .blob [[1, 2], [3]]]), ([98], .map [])]

example (c : Cfg) (h : c.strict = false) (w : Nat → Nat) : ∃ text, serialize ffDemo c w demoDoc = .ok text ∧
    ∀ rest blocks, (∀ b ∈ blocks, b ≠ []) → blocks.flatten = text ++ rest →
    (fun r => (r.1, r.2.flatten)) <$> deserialize foDemo blocks = .ok (readBack ffDemo foDemo c.precision demoDoc, rest) := by
  have hp : Plain demoDoc := by simp [demoDoc, Plain, PlainMap, PlainList, PlainStr]
  have hw : demoDoc.WF := by simp [demoDoc, Val.WF, WFMap, WFList, AMap.Sorted, AMap.above, keyLt]
  obtain ⟨text, ht⟩ := serialize_succeeds ffDemo c w demoDoc hp
    (by simp [demoDoc, Emittable, EmittableMap, EmittableList, h])
  exact ⟨text, ht, fun rest blocks => document_consumes_exactly ffDemo foDemo demo_law c w demoDoc trivial hp hw text ht rest blocks⟩

/-- C01.  Without the restriction to NUL-free strings the round trip fails: a string is cut at
its first NUL byte. -/
theorem json_round_trip_nul_false (ff : FloatFmt) (fo : FloatOps) (w : Nat → Nat) :
    ∃ text, serialize ff ⟨false, false, 2, 17⟩ w (.list [.str [97, 0, 98]]) = .ok text ∧
    (fun r => r.1) <$> deserialize fo [text] = .ok (.list [.str [97]]) := by
  rw [serialize_body]
  exact ⟨_, rfl, rfl⟩

/-! ## Strings (C04) -/

theorem esc_quotes : ∀ b : UInt8, (∀ x ∈ escChar b, 32 ≤ x) ∧
    (escChar b = [b] ∧ b ≠ 0x22 ∧ b ≠ 0x5c ∨ ∃ y ys, escChar b = 0x5c :: y :: ys ∧ 0x22 ∉ ys ∧ 0x5c ∉ ys) := by
  have key : ∀ b : Fin 256, (∀ x ∈ escChar (UInt8.ofNat b.val), 32 ≤ x) ∧
      ((escChar (UInt8.ofNat b.val) = [UInt8.ofNat b.val] ∧ UInt8.ofNat b.val ≠ 0x22 ∧ UInt8.ofNat b.val ≠ 0x5c) ∨
        ((escChar (UInt8.ofNat b.val)).head? = some 0x5c ∧ (escChar (UInt8.ofNat b.val)).length ≥ 2 ∧
          0x22 ∉ (escChar (UInt8.ofNat b.val)).drop 2 ∧ 0x5c ∉ (escChar (UInt8.ofNat b.val)).drop 2)) := by
    decide +kernel
  intro b
  have := key ⟨b.toNat, b.toNat_lt⟩
  simp only [show UInt8.ofNat b.toNat = b by simp] at this
  refine ⟨this.1, ?_⟩
  rcases this.2 with h | ⟨h1, h2, h3, h4⟩
  · exact .inl h
  · right
    match hx : escChar b with
    | [] => rw [hx] at h1; simp at h1
    | [x] => rw [hx] at h2; simp at h2
    | x :: y :: ys =>
      rw [hx] at h1 h3 h4; simp at h1 h3 h4
      exact ⟨y, ys, by rw [h1], h3, h4⟩

/-- A quote in `s` that is not preceded by an escaping backslash: scan left to right, a
backslash takes the next character with it. -/
def hasBareQuote : Bytes → Bool
  | [] => false
  | 0x5c :: _ :: s => hasBareQuote s
  | 0x5c :: [] => true
  | x :: s => x == 0x22 || hasBareQuote s

theorem bareQuote_plain (a s : Bytes) (h1 : (0x22 : UInt8) ∉ a) (h2 : (0x5c : UInt8) ∉ a) :
    hasBareQuote (a ++ s) = hasBareQuote s := by
  induction a with
  | nil => rfl
  | cons x xs ih =>
    simp only [List.mem_cons, not_or] at h1 h2
    rw [List.cons_append]
    have hx : ¬ x = 0x5c := fun e => h2.1 e.symm
    have hq : ¬ x = 0x22 := fun e => h1.1 e.symm
    rw [hasBareQuote]
    · simp [hq, ih h1.2 h2.2]
    · rintro _ _ rfl; contradiction
    · rintro rfl; contradiction

/-- C04.  The text emitted for a string is a quote, a body and a quote; the body has no control
byte and no unescaped quote or dangling backslash; and read back it is the original string. -/
theorem string_escaping (ff : FloatFmt) (fo : FloatOps) (c : Cfg) (w : Nat → Nat) (s : Bytes)
    (h0 : (0 : UInt8) ∉ s) (hlen : s.length < 2 ^ 32) :
    ∃ mid, serialize ff c w (.str s) = .ok ([0x22] ++ mid ++ [0x22]) ∧
      (∀ x ∈ mid, 32 ≤ x) ∧ hasBareQuote mid = false ∧
      (fun r => r.1) <$> deserialize fo [[0x5b, 0x22] ++ mid ++ [0x22, 0x5d]] = .ok (.list [.str s]) := by
  refine ⟨s.flatMap escChar, ?_, ?_, ?_, ?_⟩
  · rw [serialize_body]
    simp only [body, scalarText]
    rw [emitString_text ⟨h0, hlen⟩]
  · intro x hx
    simp only [List.mem_flatMap] at hx
    obtain ⟨b, _, hb⟩ := hx
    exact (esc_quotes b).1 x hb
  · clear h0 hlen
    induction s with
    | nil => rfl
    | cons b s ih =>
      rw [List.flatMap_cons]
      rcases (esc_quotes b).2 with ⟨h1, h2, h3⟩ | ⟨y, ys, h1, h2, h3⟩
      · rw [h1, bareQuote_plain [b] _ (by simpa using h2.symm) (by simpa using h3.symm), ih]
      · rw [h1]
        simp only [List.cons_append, hasBareQuote]
        rw [bareQuote_plain ys _ h2 h3, ih]
  · have hb : body ffDemo ⟨false, false, 0, 0⟩ 0 (.list [.str s]) =
        .ok ([0x5b, 0x22] ++ s.flatMap escChar ++ [0x22, 0x5d]) := by
      simp only [body, bodyList, scalarText]
      rw [emitString_text ⟨h0, hlen⟩]
      simp [ind, emitIndent]
    -- the text contains no number, so any `strtod` will do
    have hR : ReadsRest fo 0x5d [.array, .done] [.done] (T AR [.array, .done])
        ([0x22] ++ s.flatMap escChar ++ [0x22]) [.scalar (.str s)] .arrEnd := by
      have hr := reads_string fo [.array, .done] AR (.inr rfl) ⟨_, _, rfl, .inl rfl⟩ (s.flatMap escChar) s
        (.scalar (.str s)) (by simpa using str_chars (n := 2) [.array, .done] [] s (Nat.le_refl _)) (by
          simp only [callbackEvent]
          rw [if_neg]
          intro h
          apply h0
          have : (0 : UInt8) ∈ s.take 5 := by rw [h]; simp [blobTag]
          exact List.mem_of_mem_take this)
      obtain ⟨t, e0, pe0, pe1, g1, g2, g3, g4⟩ := hr
      obtain ⟨t', evs, k1, k2, k3, _⟩ := g3.arr [.done] rfl [] (by simp [WS])
      exact ⟨t', e0, evs, pe0, pe1, by simpa using g1.append k2, g2, k1, g4, k3⟩
    obtain ⟨p', h1, h2, h3⟩ := read_doc (rest := []) (open_list [.done] GO (by simp)) rfl rfl
      (fo := fo) rfl (pc := .endList) rfl hR
      (b' := ⟨[.root (.list [.str s]) true], .null, false⟩) rfl
    have hpa := parse_parseAll fo started [[0x5b, 0x22] ++ s.flatMap escChar ++ [0x22, 0x5d]] (by simp)
    have e : ([[0x5b, 0x22] ++ s.flatMap escChar ++ [0x22, 0x5d]] : List Bytes).flatten =
      0x5b :: ([0x22] ++ s.flatMap escChar ++ [0x22]) ++ [0x5d] ++ [] := by simp
    rw [e, parseAll, h1, Out.bind_ok] at hpa
    simp only [running, h2] at hpa
    simp at hpa
    rw [deserialize_eq]
    cases hq : parse fo started [[0x5b, 0x22] ++ s.flatMap escChar ++ [0x22, 0x5d]] with
    | throw e => simp at hq; rw [hq] at hpa; simp at hpa
    | ub => simp at hq; rw [hq] at hpa; simp at hpa
    | ok r =>
      simp at hq
      rw [hq] at hpa
      simp at hpa
      obtain ⟨rfl, _⟩ := hpa
      simp only [Out.bind_ok, h2, h3]
      simp [event, finish, Frame.result]

example (ff fo c w) := string_escaping ff fo c w [34, 92, 10, 195, 31] (by decide) (by decide)

end Verif.JsonTok
