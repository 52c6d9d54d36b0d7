import Verif.Payload.Round
import Verif.Event.MsgPack
/-!
# C45: writing succeeds, an example, and the values that do not come back
-/

namespace Verif.Payload
open Verif Verif.Event Verif.JsonEmit Verif.JsonDrv Verif.JsonTok Verif.Build

/-! ## Writing succeeds -/

theorem emittableList_replicate (st : Bool) (i : Nat) (x : Val) (h : Emittable st x) :
    EmittableList st (List.replicate i .null ++ [x]) := by
  induction i with
  | zero => exact ⟨h, trivial⟩
  | succ i ih => exact ⟨trivial, ih⟩

theorem emittable_setPath_null {st : Bool} {q : VPath} {n : UInt64} (hm : NoMaxIndex q) :
    Emittable st (setPath .null q (.uint n)).1 := by
  induction q with
  | nil => trivial
  | cons e q ih =>
    have h := ih (fun h => hm (by simp [h]))
    rw [setPath_null_eq (fun h => hm (by simp [h]))]
    cases e with
    | key k => exact ⟨h, trivial⟩
    | index i => exact emittableList_replicate _ _ _ h

theorem emittableMap_set {st : Bool} {m : List (Bytes × Val)} {k : Bytes} {x : Val} (h : EmittableMap st m) (hx : Emittable st x) :
    EmittableMap st (AMap.set m k x) := by
  induction m with
  | nil => exact ⟨hx, trivial⟩
  | cons y r ih =>
    obtain ⟨k', v⟩ := y
    simp only [EmittableMap] at h
    simp only [AMap.set]
    split
    · exact ⟨hx, h.2⟩
    · split
      · exact ⟨hx, h⟩
      · exact ⟨h.1, ih h.2⟩

theorem emittableMap_append {st : Bool} {a b : List (Bytes × Val)} (ha : EmittableMap st a) (hb : EmittableMap st b) :
    EmittableMap st (a ++ b) := by
  induction a with
  | nil => exact hb
  | cons y r ih => obtain ⟨k', v⟩ := y; exact ⟨ha.1, ih ha.2⟩

theorem emittableMap_get {st : Bool} {m : List (Bytes × Val)} {k : Bytes} {c : Val} (h : EmittableMap st m)
    (hc : AMap.get m k = some c) : Emittable st c := by
  induction m with
  | nil => cases hc
  | cons y r ih =>
    obtain ⟨k', v⟩ := y
    simp only [AMap.get] at hc
    split at hc
    · cases hc; exact h.1
    · exact ih h.2 hc

theorem emittable_lenTree {st : Bool} {n : UInt64} {l : VPath} : ∀ {v : Val}, Emittable st v → NoMaxIndex l →
    Emittable st (lenTree n v l) := by
  induction l with
  | nil => intro v _ _; trivial
  | cons e l ih =>
    intro v hv hm
    have hm' : NoMaxIndex l := fun h => hm (by simp [h])
    cases e with
    | index i => cases v <;> exact hv
    | key k =>
      cases v <;> try exact hv
      rename_i m
      simp only [lenTree]
      cases hc : AMap.get m k with
      | some c => exact emittableMap_set hv (ih (emittableMap_get hv hc) hm')
      | none => exact emittableMap_append hv ⟨emittable_setPath_null hm', trivial⟩

/-- Writing succeeds when the calls for the header are those for a value that can be written. -/
theorem serializeTo_ok {num : Bytes → Option UInt64} (ff : FloatFmt) (c : Cfg) (w : Nat → Nat) {o : Opts}
    {m : Mach} {v R : Val} {bl : List Bytes} {n : UInt64} (hb : m.buf = []) (hty : v.ty = .map)
    (h1 : findPayload v o = .ok bl) (h2 : findLength num v o bl = .ok n)
    (h3 : Emits (payloadCalls num n v (some o.lengthPath) (some o.dataPath)) R)
    (hp : Plain R) (he : Emittable c.strict R) : ∃ m', serializeTo num ff c w o m v = .ok m' := by
  obtain ⟨calls, hc1, hc2⟩ := h3
  obtain ⟨b, hb'⟩ := body_total ff c R 0 hp he
  have hv := emit_val ff c R []
  unfold emitText at hv
  rw [show ([] : List ES).length = 0 from rfl, hb'] at hv
  unfold serializeTo
  rw [if_neg (by simp [hty]), h1]
  simp only [Out.bind_ok, h2, hc1, hc2]
  cases he' : emitOps ff c [] (opsOf R) with
  | throw e => rw [he'] at hv; simp at hv
  | ub => rw [he'] at hv; simp at hv
  | ok r =>
    obtain ⟨m1, k1, _⟩ := exec_text w m r.1 (by simp [hb])
    simp only [Out.bind_ok, k1]
    exact ⟨_, rfl⟩

theorem sound_ty {v : Val} {o : Opts} {segs : List Bytes} (h : Sound v o segs) : v.ty = .map := by
  have hm := h.maps
  have ha := h.apart
  cases hl : o.lengthPath with
  | nil => rw [hl] at ha; exact absurd List.nil_prefix ha.1
  | cons e l =>
    rw [hl] at hm
    cases v <;> cases e <;> first | rfl | (simp [MapsTo] at hm; done)

/-- C45.  Writing succeeds for every value the round trip speaks about. -/
theorem serialize_payload_succeeds {num : Bytes → Option UInt64} (ff : FloatFmt) {c : Cfg} (w : Nat → Nat) {o : Opts}
    {m : Mach} {v : Val} {segs : List Bytes} (h : Sound v o segs) (hb : m.buf = [])
    (he : Emittable c.strict (without v o.dataPath)) :
    ∃ m', serializeTo num ff c w o m v = .ok m' := by
  have hsome : (getPath? v o.dataPath).isSome := by rw [h.payload]; rfl
  have hp : findPayload v o = .ok segs := by
    simp [findPayload, hasPath, getPath_some h.payload, h.payload, asBlob]
  obtain ⟨n, hn⟩ : ∃ n, findLength num v o segs = .ok n := by
    simp [findLength, hasPath, h.payload]
  exact serializeTo_ok ff c w hb (sound_ty h) hp hn
    (payloadCalls_hdr num _ _ v (some o.lengthPath) (some o.dataPath) (Nat.le_refl _) h.wf
        (fun q e => by cases e; exact ⟨h.maps, h.noMax⟩) (fun q e => by cases e; exact hsome)
        (fun q r e e' => by cases e; cases e'; exact h.apart))
    (plain_lenTree h.plain h.noMax h.keys) (emittable_lenTree he h.noMax)

/-! ## A value that does come back -/

/-- {"a": [-1, blob], "payload": {"data": blob}} -/
def rtV : Val := .map [([97], .list [.int (-1), .blob [[1, 2], [3]]]),
  ([112], .map [([100], .blob [[0, 9], [7]])])]
def rtO : Opts := ⟨[.key [112], .key [100]], [.key [112], .key [108]], false, none⟩

theorem rt_sound : Sound rtV rtO [[0, 9], [7]] where
  wf := by simp [rtV, Val.WF, WFMap, WFList, AMap.Sorted, AMap.above, keyLt]
  payload := rfl
  maps := by simp [rtV, rtO, MapsTo, AMap.get]
  noMax := by simp [NoMaxIndex, rtO]
  apart := by simp [Diverge, rtO, List.cons_prefix_cons]
  plain := by
    show Plain (.map [([97], .list [.int (-1), .blob [[1, 2], [3]]]), ([112], .map [])])
    simp [Plain, PlainMap, PlainList, PlainStr]
  keys := by intro k h; simp [rtO] at h; rcases h with rfl | rfl <;> simp [PlainStr]
  short := by decide

/-- The hypotheses of `payload_round_trip_partial` are met: a value with a payload inside a map,
written after ten other bytes, comes back from any input. -/
example (c : Cfg) (hc : c.strict = false) : ∃ m' bytes,
    serializeTo (fun _ => none) ffDemo c (fun _ => 100) rtO ⟨[], List.replicate 10 0, 0⟩ rtV = .ok m' ∧
    m'.out = List.replicate 10 0 ++ bytes ∧ ∀ g calls rest,
      (fun r => (r.1, r.2.rem)) <$> deserializeFrom (fun _ => none) foDemo g rtO ⟨bytes ++ rest, calls⟩ =
        .ok (.map [([97], .list [.int (-1), .blob [[1, 2, 3]]]),
          ([112], .map [([100], .blob [[0, 9, 7]]), ([108], .uint 3)])], rest) := by
  obtain ⟨m', hm⟩ := serialize_payload_succeeds (num := fun _ => none) ffDemo (c := c) (fun _ => 100) (m := ⟨[], List.replicate 10 0, 0⟩)
    rt_sound rfl (by
      show Emittable c.strict (.map [([97], .list [.int (-1), .blob [[1, 2], [3]]]), ([112], .map [])])
      simp [Emittable, EmittableMap, EmittableList, hc])
  obtain ⟨v1, bytes, h1, _, h3, h4⟩ := payload_round_trip_partial (num' := fun _ => none) demo_law rt_sound rfl (by simp) rfl rfl (by simp) hm
  refine ⟨m', bytes, hm, h3, fun g calls rest => ?_⟩
  rw [h4 g calls rest]
  have : v1 = .map [([97], .list [.int (-1), .blob [[1, 2], [3]]]),
      ([112], .map [([100], .blob [[0, 9], [7]]), ([108], .uint 3)])] := (congrArg Prod.fst h1).symm
  rw [this]
  rfl

/-- The hypotheses of `payload_empty_lost` are met: a value with an empty payload is read back
without it. -/
example (c : Cfg) : ∃ m' bytes,
    serializeTo (fun _ => none) ffDemo c (fun _ => 100) exO ⟨[], [], 0⟩ (.map [([0x64], .blob [])]) = .ok m' ∧
    m'.out = bytes ∧ ∀ g calls rest,
      (fun r => (r.1, r.2.rem)) <$> deserializeFrom (fun _ => none) foDemo g exO ⟨bytes ++ rest, calls⟩ =
        .ok (.map [([0x6c], .uint 0)], rest) := by
  have hs : Sound (.map [([0x64], .blob [])]) exO [] := by
    refine ⟨by simp [Val.WF, WFMap, AMap.Sorted, AMap.above], rfl, by simp [exO, MapsTo, AMap.get],
      by simp [NoMaxIndex, exO], by simp [Diverge, exO, List.cons_prefix_cons], trivial, ?_, by decide⟩
    intro k h; simp [exO] at h; subst h; simp [PlainStr]
  obtain ⟨m', hm⟩ := serialize_payload_succeeds (num := fun _ => none) ffDemo (c := c) (fun _ => 100) (m := ⟨[], [], 0⟩) hs rfl trivial
  obtain ⟨v1, bytes, h1, h3, h4⟩ := payload_empty_lost (num' := fun _ => none) demo_law hs rfl (by simp) rfl rfl hm
  refine ⟨m', bytes, hm, by simpa using h3, fun g calls rest => ?_⟩
  rw [h4 g calls rest]
  have : v1 = .map [([0x64], .blob []), ([0x6c], .uint 0)] := (congrArg Prod.fst h1).symm
  rw [this]
  rfl

/-! ## Values that do not come back -/

/-- If the header written is that of `R` and `R` has no length at the length path, the payload is
not read: the value read is `R`, and the payload is left in the input. -/
theorem payload_lost {num : Bytes → Option UInt64} {c : Cfg} {o : Opts} {v R : Val} {segs : List Bytes}
    (hty : v.ty = .map) (hn : o.payloadLength = none) (hi : o.ignorePayload = false)
    (hg : getPath? v o.dataPath = some (.blob segs))
    (hR : ∀ n, Emits (payloadCalls num n v (some o.lengthPath) (some o.dataPath)) R)
    (hcont : IsContainer R) (hp : Plain R) (he : Emittable c.strict R)
    (hl : getPath? (treeOf (readBack ffDemo foDemo c.precision R)).value o.lengthPath = none) :
    ∃ m', serializeTo num ffDemo c (fun _ => 100) o ⟨[], [], 0⟩ v = .ok m' ∧ ∀ g calls rest,
      (fun r => (r.1, r.2.rem)) <$> deserializeFrom num foDemo g o ⟨m'.out ++ rest, calls⟩ =
        .ok ((treeOf (readBack ffDemo foDemo c.precision R)).value, segs.flatten ++ rest) := by
  have h1 : findPayload v o = .ok segs := by simp [findPayload, hasPath, getPath_some hg, hg, asBlob]
  obtain ⟨n, h2⟩ : ∃ n, findLength num v o segs = .ok n := by simp [findLength, hasPath, hg]
  obtain ⟨m', hm⟩ := serializeTo_ok ffDemo c (fun _ => 100) (m := ⟨[], [], 0⟩) rfl hty h1 h2 (hR n) hp he
  refine ⟨m', hm, ?_⟩
  obtain ⟨bytes, k1, k2⟩ := header_read demo_law rfl (by simp) hm hcont hp (fun n _ => hR n)
  simp at k1
  rw [k1]
  intro g calls rest
  obtain ⟨s', k3, k4⟩ := k2 g calls rest
  unfold deserializeFrom
  rw [k3]
  simp only [Out.bind_ok]
  have : getPathDef (treeOf (readBack ffDemo foDemo c.precision R)).value o.lengthPath (.uint 0) = .uint 0 := by
    simp [getPathDef, hl]
  rw [this, show asUnsigned num (.uint 0) = .ok 0 from rfl]
  simp [k4, payloadBytes, hg, hi]

/-- C45, finding: with the same path for the payload and its length, the header has no length and
the payload is not read. -/
theorem payload_same_path_false (c : Cfg) : ∃ (o : Opts) (v : Val) (m' : Mach),
    getPath? v o.dataPath = some (.blob [[1]]) ∧ o.dataPath = o.lengthPath ∧
    serializeTo (fun _ => none) ffDemo c (fun _ => 100) o ⟨[], [], 0⟩ v = .ok m' ∧ ∀ g calls rest,
      (fun r => (r.1, r.2.rem)) <$> deserializeFrom (fun _ => none) foDemo g o ⟨m'.out ++ rest, calls⟩ =
        .ok (.map [], 1 :: rest) := by
  obtain ⟨m', h1, h2⟩ := payload_lost (num := fun _ => none) (c := c) (o := ⟨[.key [0x64]], [.key [0x64]], false, none⟩)
    (v := exV) (R := .map []) (segs := [[1]]) rfl rfl rfl rfl (fun n => ⟨_, rfl, rfl⟩) trivial trivial trivial rfl
  exact ⟨_, _, m', rfl, rfl, h1, h2⟩

/-- C45, finding: when the length path goes through a null, the null is written and not the length,
and the payload is not read. -/
theorem payload_null_false (c : Cfg) : ∃ (o : Opts) (v : Val) (m' : Mach),
    getPath? v o.dataPath = some (.blob [[1]]) ∧ (setPath v o.lengthPath (.uint 1)).2 = none ∧
    serializeTo (fun _ => none) ffDemo c (fun _ => 100) o ⟨[], [], 0⟩ v = .ok m' ∧ ∀ g calls rest,
      (fun r => (r.1, r.2.rem)) <$> deserializeFrom (fun _ => none) foDemo g o ⟨m'.out ++ rest, calls⟩ =
        .ok (.map [([0x70], .null)], 1 :: rest) := by
  obtain ⟨m', h1, h2⟩ := payload_lost (num := fun _ => none) (c := c)
    (o := ⟨[.key [0x64]], [.key [0x70], .key [0x6c]], false, none⟩)
    (v := .map [([0x64], .blob [[1]]), ([0x70], .null)]) (R := .map [([0x70], .null)]) (segs := [[1]]) rfl rfl rfl rfl
    (fun n => ⟨_, rfl, rfl⟩) trivial (by simp [Plain, PlainMap, PlainStr]) (by simp [Emittable, EmittableMap]) rfl
  exact ⟨_, _, m', rfl, rfl, h1, h2⟩

/-- C45, finding: when the length path ends at the end of a list, the list is written without the
length, and the payload is not read. -/
theorem payload_list_false (c : Cfg) : ∃ (o : Opts) (v : Val) (m' : Mach),
    getPath? v o.dataPath = some (.blob [[1]]) ∧ (setPath v o.lengthPath (.uint 1)).2 = none ∧
    serializeTo (fun _ => none) ffDemo c (fun _ => 100) o ⟨[], [], 0⟩ v = .ok m' ∧ ∀ g calls rest,
      (fun r => (r.1, r.2.rem)) <$> deserializeFrom (fun _ => none) foDemo g o ⟨m'.out ++ rest, calls⟩ =
        .ok (.map [([0x70], .list [])], 1 :: rest) := by
  obtain ⟨m', h1, h2⟩ := payload_lost (num := fun _ => none) (c := c)
    (o := ⟨[.key [0x64]], [.key [0x70], .index 0], false, none⟩)
    (v := .map [([0x64], .blob [[1]]), ([0x70], .list [])]) (R := .map [([0x70], .list [])]) (segs := [[1]]) rfl rfl rfl rfl
    (fun n => ⟨_, rfl, rfl⟩) trivial (by simp [Plain, PlainList, PlainMap, PlainStr]) (by simp [Emittable, EmittableMap, EmittableList]) rfl
  exact ⟨_, _, m', rfl, rfl, h1, h2⟩

/-- C45, finding: the length announced for a map on the data path is one too small when the path
goes on below it (src/Payload.cc 97 against 103).  JSON ignores announced lengths; a MessagePack
header relies on them.  With paths `p/d` and `p/l`, the header of {"p": {"d": payload}} is read as
an empty map. -/
theorem payload_msgpack_false (ft : UInt64 → Bytes) :
    ∃ calls st, payloadCalls (fun _ => none) 1 (.map [([0x70], .map [([0x64], .blob [[1]])])])
        (some [.key [0x70], .key [0x6c]]) (some [.key [0x70], .key [0x64]]) = .ok calls ∧
      calls = [.beginMap (toInt32 0), .str [0x70], .beginMap (toInt32 1), .str [0x6c], .uint 1, .endMap, .endMap] ∧
      mpAll 1 MP.init calls = some st ∧
      (Event.deserialize 32 ft st.out).map (fun r => (·.result) <$> r) = some (.ok (.map [])) := by
  refine ⟨[.beginMap (toInt32 0), .str [0x70], .beginMap (toInt32 1), .str [0x6c], .uint 1, .endMap, .endMap],
    ⟨none, [.map 0, .string [0x70], .map 1, .string [0x6c], .uint64 1]⟩, rfl, rfl, ?_, ?_⟩
  · have h0 : toInt32 0 = 0 := by decide
    have h1 : toInt32 1 = 1 := by decide
    rw [h0, h1]
    simp only [mpAll, mp, MP.init, unknownLength, pack, Event.cstr]
    rfl
  · have : Event.deserialize 32 ft [.map 0, .string [0x70], .map 1, .string [0x6c], .uint64 1] =
        some (.ok ⟨[], .map [], true⟩) := by
      simp only [Event.deserialize, unpack, ustep, complete]
      rfl
    show Option.map _ (Event.deserialize 32 ft [.map 0, .string [0x70], .map 1, .string [0x6c], .uint64 1]) = _
    rw [this]
    rfl

end Verif.Payload
