import Verif.Schema.ReportProps
import Verif.Schema.Height
import Verif.Schema.MetaParsed
import Verif.Val.EraseProps
import Verif.Ext.PointerProps
/-!
# C112: every error names its place

Every error in the result of a validation, also in the results of alternatives inside it, is there because something
reached by the rules of the keywords (`Reach`) is at fault (`Fault`), and its two paths are the paths to it.  So the data
path always leads to a value in the data.  The schema path leads to the keyword if one follows references: a `$ref` is not
on the path, so the path alone may lead nowhere.
-/

namespace Verif.Schema
open Verif

/-- The result of `SchemaValidate` with a given way to find references (src/Schema.cc 836-840). -/
def report (E : Env) (S X : Val) : Option (Out Report) := outcomeD (validateD E (recursionLimit + 1) 0 ⟨[], []⟩ S X)

theorem report_good {E : Env} {S X : Val} {r : Report} (h : report E S X = some (.ok r)) :
    r.1.length ≤ 1 ∧ (∀ n ∈ r.1, Place E S X n) ∧ ∀ p ∈ r.2, SchemaExplained E S X p := by
  have hg := good_validate (E := E) (S := S) (X := X) (recursionLimit + 1) 0 ⟨[], []⟩ S X rfl .start
  unfold report at h
  rcases hx : validateD E (recursionLimit + 1) 0 ⟨[], []⟩ S X with _ | (q | ⟨e, q⟩ | e | _) <;> rw [hx] at h hg <;> cases h
  · exact ⟨Nat.zero_le _, nofun, fun p hp => (hg p hp).2⟩
  · exact ⟨hg.2.1, fun n hn => (hg.2.2.1 n hn).2.2, fun p hp => (hg.2.2.2 p hp).2⟩

/-- C112: every validation error, at any level, is explained. -/
theorem error_explained {E : Env} {S X : Val} {r : Report} (h : report E S X = some (.ok r)) {n : Note} (hn : InReport n r) :
    Explained E S X n ∧ SubsBelow n := by
  have key : ∀ r, InReport n r → (∀ n ∈ r.1, Place E S X n) → Explained E S X n ∧ SubsBelow n := by
    intro r hn
    induction hn with
    | here hm => intro hp; cases hp n hm with | mk h1 h2 => exact ⟨h1, h2⟩
    | inside hm hr _ ih => intro hp; cases hp _ hm with | mk _ _ h3 => exact ih (h3 _ hr)
  exact key r hn (report_good h).2.1

/-- C112: every schema error, at any level, is explained. -/
theorem schema_error_explained {E : Env} {S X : Val} {r : Report} (h : report E S X = some (.ok r)) {p : VPath} (hn : SInReport p r) :
    SchemaExplained E S X p := by
  have key : ∀ r, SInReport p r → (∀ n ∈ r.1, Place E S X n) → (∀ p ∈ r.2, SchemaExplained E S X p) → SchemaExplained E S X p := by
    intro r hn
    induction hn with
    | here hm => intro _ hs; exact hs p hm
    | inside hm hr _ ih => intro hp _; cases hp _ hm with | mk _ _ h3 h4 => exact ih (h3 _ hr) (h4 _ hr)
  exact key r hn (report_good h).2.1 (report_good h).2.2

/-- A result has at most one validation error: the first one found. -/
theorem single_error {E : Env} {S X : Val} {r : Report} (h : report E S X = some (.ok r)) :
    r.1.length ≤ 1 ∧ ∀ n, InReport n r → ∀ r' ∈ n.subs, r'.1.length ≤ 1 := by
  refine ⟨(report_good h).1, fun n hn => ?_⟩
  have key : ∀ r, InReport n r → (∀ n ∈ r.1, Place E S X n) → ∀ r' ∈ n.subs, r'.1.length ≤ 1 := by
    intro r hn
    induction hn with
    | here hm => intro hp; cases hp n hm with | mk _ _ _ _ h5 => exact h5
    | inside hm hr _ ih => intro hp; cases hp _ hm with | mk _ _ h3 => exact ih (h3 _ hr)
  exact key r hn (report_good h).2.1

/-! ## The paths lead there -/

/-- Maps have every key once, in order, and lists are not longer than a path element can say. -/
def Neat (v : Val) : Prop := v.WF ∧ ListsFit v

theorem neat_path {v w : Val} {p : VPath} (h : Neat v) (hp : getPath? v p = some w) : Neat w :=
  ⟨getPath?_wf h.1 hp, fun q xs hq => h.2 (p ++ q) xs (by rw [getPath?_append, hp]; exact hq)⟩

theorem path_one {v w : Val} {e : PathElem} : getPath? v [e] = some w ↔ getElem? v e = some w := by
  rw [getPath?]
  cases getElem? v e <;> simp [getPath?]

theorem path_two {v w : Val} {e f : PathElem} : getPath? v [e, f] = some w ↔ ∃ u, getElem? v e = some u ∧ getElem? u f = some w := by
  rw [getPath?]
  cases getElem? v e <;> simp [path_one]

theorem elem_key {m : List (Bytes × Val)} {k : Bytes} : getElem? (.map m) (.key k) = AMap.get m k := rfl

theorem elem_idx {xs : List Val} {i : Nat} {x : Val} (hf : xs.length < 2 ^ 32) (h : xs[i]? = some x) :
    getElem? (.list xs) (idx i) = some x := by
  have hi := (List.getElem?_eq_some_iff.mp h).1
  have : (UInt32.ofNat i).toNat = i := by
    rw [UInt32.toNat_ofNat']
    exact Nat.mod_eq_of_lt (by omega)
  show xs[(UInt32.ofNat i).toNat]? = some x
  rw [this, h]

theorem neat_get {m : List (Bytes × Val)} {k : Bytes} {x : Val} (h : Neat (.map m)) (hm : (k, x) ∈ m) : AMap.get m k = some x := by
  have hw := h.1
  rw [Val.WF] at hw
  exact AMap.get_of_mem hw.1 hm

theorem neat_len {xs : List Val} (h : Neat (.list xs)) : xs.length < 2 ^ 32 := h.2 [] xs rfl

theorem at_list {m : List (Bytes × Val)} {k : Bytes} {ss : List Val} (hn : Neat (.map m)) (hk : has m k (.list ss)) : ss.length < 2 ^ 32 :=
  neat_len (neat_path hn (path_one (e := .key k).mpr hk))

theorem at_map {m : List (Bytes × Val)} {k : Bytes} {ps : List (Bytes × Val)} (hn : Neat (.map m)) (hk : has m k (.map ps)) : Neat (.map ps) :=
  neat_path hn (path_one (e := .key k).mpr hk)

theorem move_data {E : Env} {s d t x : Val} {sq dq : VPath} (h : Move E s d sq dq t x) (hd : Neat d) : getPath? d dq = some x := by
  cases h with
  | ref | oneOfMany | not | dependencies => rfl
  | items _ _ hi | itemsAt _ _ hi | additionalItems _ _ _ hi => exact path_one.mpr (elem_idx (neat_len hd) hi)
  | properties _ _ hm | patterns _ _ _ hm | additionalProperties _ _ hm => exact path_one.mpr (neat_get hd hm)

/-- A step goes down the schema, or through a reference. -/
theorem move_schema {E : Env} {s d t x : Val} {sq dq : VPath} (h : Move E s d sq dq t x) (hs : Neat s) :
    getPath? s sq = some t ∨ (sq = [] ∧ ∃ m r, s = .map m ∧ has m kRef (.str r) ∧ E.loader r = .ok t) := by
  cases h with
  | ref h1 h2 => exact .inr ⟨rfl, _, _, rfl, h1, h2⟩
  | oneOfMany _ h1 h2 => exact .inl (path_two.mpr ⟨_, h1, elem_idx (at_list hs h1) h2⟩)
  | not h1 => exact .inl (path_one.mpr h1)
  | items h1 => exact .inl (path_one.mpr h1)
  | itemsAt h1 h2 => exact .inl (path_two.mpr ⟨_, h1, elem_idx (at_list hs h1) h2⟩)
  | additionalItems _ _ h1 => exact .inl (path_one.mpr h1)
  | properties h1 h2 => exact .inl (path_two.mpr ⟨_, h1, h2⟩)
  | patterns h1 h2 => exact .inl (path_two.mpr ⟨_, h1, neat_get (at_map hs h1) h2⟩)
  | additionalProperties _ h1 => exact .inl (path_one.mpr h1)
  | dependencies h1 h2 => exact .inl (path_two.mpr ⟨_, h1, neat_get (at_map hs h1) h2⟩)

theorem reach_data {E : Env} {S X s d : Val} {k : Nat} {sp dp : VPath} (h : Reach E S X k sp s dp d) (hX : Neat X) :
    getPath? X dp = some d := by
  induction h with
  | start => rfl
  | step _ hm ih => rw [getPath?_append, ih]; exact move_data hm (neat_path hX ih)

/-- Following a path, and references wherever there are any. -/
inductive Leads (E : Env) (S : Val) : VPath → Val → Prop
  | start : Leads E S [] S
  | down {p v e w} : Leads E S p v → getElem? v e = some w → Leads E S (p ++ [e]) w
  | ref {p m r w} : Leads E S p (.map m) → has m kRef (.str r) → E.loader r = .ok w → Leads E S p w

theorem leads_path {E : Env} {S v w : Val} {p : VPath} (h : Leads E S p v) (q : VPath) (hq : getPath? v q = some w) :
    Leads E S (p ++ q) w := by
  induction q generalizing p v with
  | nil => cases hq; simpa using h
  | cons e q ih =>
    rw [getPath?] at hq
    cases he : getElem? v e with
    | none => rw [he] at hq; cases hq
    | some u =>
      rw [he] at hq
      have := ih (h.down he) hq
      rwa [List.append_assoc, List.singleton_append] at this

theorem reach_schema {E : Env} {S X s d : Val} {k : Nat} {sp dp : VPath} (h : Reach E S X k sp s dp d) (hS : Neat S)
    (hl : ∀ r t, E.loader r = .ok t → Neat t) : Leads E S sp s ∧ Neat s := by
  induction h with
  | start => exact ⟨.start, hS⟩
  | step _ hm ih =>
    rcases move_schema hm ih.2 with hp | ⟨rfl, m, r, rfl, h1, h2⟩
    · exact ⟨leads_path ih.1 _ hp, neat_path ih.2 hp⟩
    · rw [List.append_nil]
      exact ⟨ih.1.ref h1 h2, hl r _ h2⟩

theorem reach_refFree {E : Env} {S X s d : Val} {k : Nat} {sp dp : VPath} (h : Reach E S X k sp s dp d) (hS : Neat S)
    (hf : refFree S = true) : getPath? S sp = some s ∧ refFree s = true := by
  have down : ∀ (p : VPath) (v w : Val), refFree v = true → getPath? v p = some w → refFree w = true := by
    intro p
    induction p with
    | nil => intro v w hv hw; cases hw; exact hv
    | cons e p ih =>
      intro v w hv hw
      rw [getPath?] at hw
      cases he : getElem? v e with
      | none => rw [he] at hw; cases hw
      | some u =>
        rw [he] at hw
        refine ih u w ?_ hw
        cases e with
        | key k => cases v <;> simp only [getElem?, getKey?] at he <;> first | cases he | exact (mem_map (get_mem he) hv).2.1
        | index i => cases v <;> simp only [getElem?, getIndex?] at he <;> first | cases he | exact (mem_list (List.mem_of_getElem? he) hv).2
  induction h with
  | start => exact ⟨rfl, hf⟩
  | step _ hm ih =>
    rcases move_schema hm (neat_path hS ih.1) with hp | ⟨rfl, m, r, rfl, h1, h2⟩
    · exact ⟨by rw [getPath?_append, ih.1]; exact hp, down _ _ _ ih.2 hp⟩
    · exact absurd rfl (mem_map (get_mem h1) ih.2).2.2

theorem fault_data {E : Env} {sub : Val → Val → Vd} {m : List (Bytes × Val)} {d : Val} {ks ds : VPath} {subs : List Report}
    (h : Fault E sub m d ks ds subs) (hd : Neat d) : ∃ x, getPath? d ds = some x := by
  cases h with
  | additionalProperties _ h' => exact ⟨_, path_one.mpr (neat_get hd h')⟩
  | additionalItems _ _ _ hi => exact ⟨_, path_one.mpr (elem_idx (neat_len hd) (List.getElem?_eq_getElem hi))⟩
  | _ => exact ⟨_, rfl⟩

theorem fault_schema {E : Env} {sub : Val → Val → Vd} {m : List (Bytes × Val)} {d : Val} {ks ds : VPath} {subs : List Report}
    (h : Fault E sub m d ks ds subs) (hm : Neat (.map m)) : ∃ v, getPath? (.map m) ks = some v := by
  have one : ∀ {k : Bytes} {v : Val}, has m k v → ∃ v, getPath? (.map m) [.key k] = some v := fun h => ⟨_, path_one.mpr h⟩
  cases h with
  | type h | enum h | pattern h | formatRegex h | uniqueItems h | twoOf h | not h => exact one h
  | multipleOf _ h | minimum _ h | maximum _ h | format _ h | noneOf _ h => exact one h
  | divisibleBy _ _ h | tooSmall _ _ h | tooLarge _ _ h => exact one h
  | exclusiveMinimum _ _ _ h | exclusiveMaximum _ _ _ h => exact one h
  | required h h' => exact ⟨_, path_two.mpr ⟨_, h, elem_idx (at_list hm h) h'⟩⟩
  | dependency h h' => exact ⟨_, path_two.mpr ⟨_, h, neat_get (at_map hm h) h'⟩⟩
  | dependencies h h' _ h'' =>
    have hg := neat_get (at_map hm h) h'
    have := path_two.mpr ⟨_, (elem_key.trans hg), elem_idx (at_list (at_map hm h) hg) h''⟩
    exact ⟨_, by rw [getPath?, elem_key, h]; exact this⟩
  | additionalProperties h => exact one h
  | additionalItems _ h => exact one h

/-- C112: the data path of every error leads to a value in the data. -/
theorem data_path {E : Env} {S X : Val} (hX : Neat X) {r : Report} (h : report E S X = some (.ok r)) {n : Note} (hn : InReport n r) :
    ∃ x, getPath? X n.data = some x := by
  obtain ⟨⟨k, sp, m, dp, d, ks, ds, hr, hf, _, h2⟩, _⟩ := error_explained h hn
  have hd := reach_data hr hX
  obtain ⟨x, hx⟩ := fault_data hf (neat_path hX hd)
  exact ⟨x, by rw [h2, getPath?_append, hd]; exact hx⟩

/-- C112: the schema path of every error leads to a keyword when references are followed. -/
theorem schema_path_leads {E : Env} {S X : Val} (hS : Neat S) (hl : ∀ r t, E.loader r = .ok t → Neat t) {r : Report}
    (h : report E S X = some (.ok r)) {n : Note} (hn : InReport n r) : ∃ v, Leads E S n.schema v := by
  obtain ⟨⟨k, sp, m, dp, d, ks, ds, hr, hf, h1, _⟩, _⟩ := error_explained h hn
  obtain ⟨hs, hm⟩ := reach_schema hr hS hl
  obtain ⟨v, hv⟩ := fault_schema hf hm
  exact ⟨v, by rw [h1]; exact leads_path hs ks hv⟩

/-- C112: in a schema without references the schema path of every error leads to a keyword. -/
theorem schema_path_partial {E : Env} {S X : Val} (hS : Neat S) (hf : refFree S = true) {r : Report}
    (h : report E S X = some (.ok r)) {n : Note} (hn : InReport n r) : ∃ v, getPath? S n.schema = some v := by
  obtain ⟨⟨k, sp, m, dp, d, ks, ds, hr, hf', h1, _⟩, _⟩ := error_explained h hn
  have hs := (reach_refFree hr hS hf).1
  obtain ⟨v, hv⟩ := fault_schema hf' (neat_path hS hs)
  exact ⟨v, by rw [h1, getPath?_append, hs]; exact hv⟩

theorem defect_schema {E : Env} {m : List (Bytes × Val)} {ks : VPath} (h : Defect E m ks) (hm : Neat (.map m)) :
    (∃ v, getPath? (.map m) ks = some v) ∨ (∃ w, ks = [.key kType, idx 0] ∧ has m kType w ∧ w.ty ≠ .list) := by
  have one : ∀ {k : Bytes} {v : Val}, has m k v → ∃ v, getPath? (.map m) [.key k] = some v := fun h => ⟨_, path_one.mpr h⟩
  cases h with
  | noNumber _ h | negative _ h | noList _ h | noObject _ h | format _ h => exact .inl (one h)
  | noBool h | noString h | pattern h => exact .inl (one h)
  | properties => exact .inl ⟨_, rfl⟩
  | patternKey h h' => exact .inl ⟨_, path_two.mpr ⟨_, h, neat_get (at_map hm h) h'⟩⟩
  | requiredItem h h' => exact .inl ⟨_, path_two.mpr ⟨_, h, elem_idx (at_list hm h) h'⟩⟩
  | dependency h h' => exact .inl ⟨_, path_two.mpr ⟨_, h, neat_get (at_map hm h) h'⟩⟩
  | @typeName t w i h h' =>
    have plain : t.ty ≠ .list → namesIn t = [t] := by intro hn; cases t <;> first | rfl | exact absurd rfl hn
    by_cases hl : t.ty = .list
    · cases t <;> first | cases hl | skip
      exact .inl ⟨_, path_two.mpr ⟨_, h, elem_idx (at_list hm h) h'⟩⟩
    · rw [plain hl] at h'
      have := (List.getElem?_eq_some_iff.mp h').1
      cases i with
      | zero => exact .inr ⟨t, rfl, h, hl⟩
      | succ i => simp at this

/-- C112: the schema path of a schema error leads, references followed, to what is wrong; only for an unknown type name that is
not in a list it has a 0 too many at its end. -/
theorem schema_error_leads {E : Env} {S X : Val} (hS : Neat S) (hl : ∀ r t, E.loader r = .ok t → Neat t) {r : Report}
    (h : report E S X = some (.ok r)) {p : VPath} (hn : SInReport p r) :
    (∃ v, Leads E S p v) ∨ ∃ q w, p = q ++ [.key kType, idx 0] ∧ Leads E S (q ++ [.key kType]) w ∧ w.ty ≠ .list := by
  rcases schema_error_explained h hn with ⟨k, sp, m, dp, d, ks, hr, hf, h1⟩ | ⟨s, dp, d, hr⟩
  · obtain ⟨hs, hm⟩ := reach_schema hr hS hl
    rcases defect_schema hf hm with ⟨v, hv⟩ | ⟨w, rfl, hw, hl⟩
    · exact .inl ⟨v, by rw [h1]; exact leads_path hs ks hv⟩
    · exact .inr ⟨sp, w, h1, leads_path hs _ (path_one.mpr hw), hl⟩
  · exact .inl ⟨s, (reach_schema hr hS hl).1⟩

/-- C112: there is something in the result exactly if the data is not accepted. -/
theorem report_verdict {E : Env} {S X : Val} {r : Report} (h : report E S X = some (.ok r)) :
    (r.1 = [] ∧ r.2 = []) ↔ alone E S X = .accept := by
  have hg := good_validate (E := E) (S := S) (X := X) (recursionLimit + 1) 0 ⟨[], []⟩ S X rfl .start
  unfold report at h
  unfold alone
  rw [← forget_validate E _ 0 ⟨[], []⟩]
  rcases hx : validateD E (recursionLimit + 1) 0 ⟨[], []⟩ S X with _ | ((_ | ⟨x, q⟩) | ⟨e, q⟩ | e | _) <;> rw [hx] at h hg <;> cases h
  · simp [forget, D.forget, verdict]
  · simp [forget, D.forget, verdict]
  · simp only [forget, D.forget, verdict, Option.map_some]
    constructor
    · rintro ⟨h1, h2⟩
      rcases hg.1 with h | h
      · exact absurd h1 h
      · exact absurd h2 h
    · nofun

/-- When no chain of steps comes near the limit, the verdicts in `Fault` are those of the schemas on their own. -/
theorem judge_alone {E : Env} {k n : Nat} {s d : Val} (h : Within E n (s, d)) (hk : k + n ≤ recursionLimit) :
    judge E k s d = alone E s d := by
  unfold judge alone
  rw [validate_depth E n s d _ (recursionLimit + 1) k 0 h (by omega) (by omega) hk (by omega)]

/-! ## The call a user makes -/

/-- C112 for `SchemaValidate(schema, data, loader)`: `S` is the schema used. -/
theorem schemaReport_report {E : Env} {builtin : Bytes × Val} {bases : List Loader.Layer} {s d : Val} {r : Report}
    (h : schemaReport E builtin bases s d = some (.ok r)) : ∃ S, chosenSchema E.p builtin bases s d = .ok S ∧
      report { E with loader := lookup E.p builtin bases S } (Loader.norm [] S) d = some (.ok r) := by
  unfold schemaReport at h
  cases hc : chosenSchema E.p builtin bases s d with
  | throw e => rw [hc] at h; cases h
  | ub => rw [hc] at h; cases h
  | ok S => rw [hc] at h; exact ⟨S, rfl, h⟩

/-- The data path of every error a user is given leads to a value in the data. -/
theorem user_data_path {E : Env} {builtin : Bytes × Val} {bases : List Loader.Layer} {s d : Val} {r : Report} (hd : Neat d)
    (h : schemaReport E builtin bases s d = some (.ok r)) {n : Note} (hn : InReport n r) : ∃ x, getPath? d n.data = some x := by
  obtain ⟨S, _, hr⟩ := schemaReport_report h
  exact data_path hd hr hn

/-! ## Examples and limits -/

def kA : Bytes := [97]

/-- {"properties": {"a": {"items": {"anyOf": [{"type": "string"}, {"minimum": 5}]}}}} -/
def exPlaces : Val := .map [(kProperties, .map [(kA, .map [(kItems, .map [(kAnyOf, .list [.map [(kType, .str wString)],
  .map [(kMinimum, .int 5)]])])])])]

/-- {"a": [7, 3]} -/
def exData : Val := .map [(kA, .list [.int 7, .int 3])]

/-- The second item fails both alternatives. -/
example : report (envOf .null) exPlaces exData = some (.ok ([.mk [.key kA, .index 1] [.key kProperties, .key kA, .key kItems, .key kAnyOf]
    [([.mk [.key kA, .index 1] [.key kProperties, .key kA, .key kItems, .key kAnyOf, .index 0, .key kType] []], []),
     ([.mk [.key kA, .index 1] [.key kProperties, .key kA, .key kItems, .key kAnyOf, .index 1, .key kMinimum] []], [])]], [])) := by
  kernel_refl

theorem neat_one {k : Bytes} {v : Val} (h : Neat v) : Neat (.map [(k, v)]) := by
  refine ⟨by simp [Val.WF, WFMap, AMap.Sorted, AMap.above, h.1], Ext.fits_map fun k' c hc => ?_⟩
  rcases Ext.get_one hc with ⟨_, rfl⟩
  exact h.2

theorem neat_str (s : Bytes) : Neat (.str s) := ⟨by simp [Val.WF], Ext.fits_leaf rfl rfl⟩

theorem neat_int (i : Int64) : Neat (.int i) := ⟨by simp [Val.WF], Ext.fits_leaf rfl rfl⟩

theorem neat_pair {v w : Val} (hv : Neat v) (hw : Neat w) : Neat (.list [v, w]) := by
  refine ⟨by simp [Val.WF, WFList, hv.1, hw.1], Ext.fits_list (by simp) fun c hc => ?_⟩
  simp only [List.mem_cons, List.not_mem_nil, or_false] at hc
  rcases hc with rfl | rfl
  · exact hv.2
  · exact hw.2

example : Neat exData := neat_one (neat_pair (neat_int _) (neat_int _))

example : Neat exPlaces ∧ refFree exPlaces = true :=
  ⟨neat_one (neat_one (neat_one (neat_one (neat_pair (neat_one (neat_str _)) (neat_one (neat_int _)))))), by decide⟩

/-- A reference is not on the schema path: {"$ref": "#"} to {"type": "null"} reports the path `type`, which the schema given
does not have. -/
theorem ref_path_false : ∃ E S X r n, Neat S ∧ Neat X ∧ (∀ u t, E.loader u = .ok t → Neat t) ∧ report E S X = some (.ok r) ∧ InReport n r ∧
    getPath? S n.schema = none := by
  refine ⟨envOf (.map [(kType, .str wNull)]), .map [(kRef, .str hash)], .bool true, ([.mk [] [.key kType] []], []), .mk [] [.key kType] [],
    ?_, ?_, ?_, by kernel_refl, .here (List.mem_singleton.mpr rfl), by kernel_refl⟩
  · exact neat_one (neat_str _)
  · exact ⟨by simp [Val.WF], Ext.fits_leaf rfl rfl⟩
  · intro u t h
    cases h
    exact neat_one (neat_str _)

/-- An unknown type name that is not in a list: {"type": "any"} reports `type[0]`, which the schema does not have. -/
theorem type_path_false : ∃ E S X r p, refFree S = true ∧ report E S X = some (.ok r) ∧ SInReport p r ∧ getPath? S p = none :=
  ⟨envOf .null, .map [(kType, .str [97, 110, 121])], .null, ([.mk [] [.key kType] []], [[.key kType, idx 0]]), [.key kType, idx 0],
    by decide, by kernel_refl, .here (List.mem_singleton.mpr rfl), by kernel_refl⟩

end Verif.Schema
