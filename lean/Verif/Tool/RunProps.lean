import Verif.Tool.RunSpec
import Verif.Args.GenResult
/-!
# C111: varsh does what its command line asks
-/
namespace Verif.Tool
open Verif Verif.Args JsonDrv Schema

/-! ## The entries of the parser -/

/-- Two scalars are the same. -/
def sameScalar : Val → Val → Bool
  | .bool a, .bool b => a == b
  | .str a, .str b => a == b
  | _, _ => false

theorem sameScalar_eq {a b : Val} (h : sameScalar a b = true) : a = b := by
  cases a <;> cases b <;> simp_all [sameScalar]

/-- The default is this one. -/
def hasDefault (c : Config) (d : Option Val) : Bool :=
  match optGet c kDefault, d with
  | none, none => true
  | some x, some y => sameScalar x y
  | _, _ => false

theorem hasDefault_eq {c : Config} {d : Option Val} (h : hasDefault c d = true) : optGet c kDefault = d := by
  unfold hasDefault at h
  split at h
  · next h1 => rw [h1]
  · next h1 => rw [h1, sameScalar_eq h]
  · cases h

/-- No group of the entry is exclusive. -/
def freeGroups (s : St) (c : Config) : Bool := c.groups.all fun n => match find s.groups n with
  | none => true
  | some g => !g.exclusive

/-- The entry takes words with its option, stored in this way under this path, with this default. -/
def takes (s : St) (k : Int32) (a : Action) (p : VPath) (ty : Ty) (d : Option Val) : Bool :=
  match s.entry k with
  | none => false
  | some o => decide (o.cfg.action = a) && decide (o.cfg.ty = ty) && decide (o.path = p) && (optGet o.cfg kEnv).isNone && hasDefault o.cfg d &&
    (d.isNone || freeGroups s o.cfg) && !s.reg.arguments.contains k

/-- The entry is a flag, false by default. -/
def isFlag (s : St) (k : Int32) (p : VPath) : Bool :=
  match s.entry k with
  | none => false
  | some o => decide (o.cfg.action = .storeTrue) && decide (o.path = p) && hasDefault o.cfg (some (.bool false))

/-- All paths are made of keys. -/
def keyed (s : St) : Bool := s.reg.optionMap.all fun x => x.2.path.all fun e => match e with
  | .key _ => true
  | .index _ => false

/-- The options with a word whose last mention counts: number, path, type and default. -/
def lastOnes : List (Int32 × Bytes × Ty × Option Val) := [
  (264, vSparamsPretty, .bool, some (.bool true)), (265, vSparamsIndent, .int, none), (266, vSparamsPrecision, .int, none),
  (267, vSparamsWidth, .int, none), (268, vSparamsScalarStyle, .str, none), (269, vSparamsMapStyle, .str, none),
  (270, vSparamsListStyle, .str, none), (271, vSparamsImplicitDocumentBegin, .bool, none), (272, vSparamsImplicitDocumentEnd, .bool, none),
  (273, vExtensionParamsNoSimpleLists, .bool, some (.bool false)), (274, vExtensionParamsPathPrefix, .str, some (.str [])),
  (275, vExtensionParamsPathDelimiter, .str, some (.str [47])), (276, vExtensionParamsIndexPrefix, .str, some (.str [91])),
  (277, vExtensionParamsIndexSuffix, .str, some (.str [93])), (278, vExtensionParamsListDelimiter, .str, some (.str [44]))]

/-- The path a text is read as. -/
def pathOf (b : Bytes) : VPath := match PathM.parsePath b with
  | .ok p => p
  | _ => []

theorem varsh_entries : ∀ yaml xml, keyed (varshIn0 yaml xml).st = true ∧
    takes (varshIn0 yaml xml).st 257 .append [.key vSchemaPath] .str none = true ∧
    takes (varshIn0 yaml xml).st 258 .append [.key vSchemas] .str none = true ∧
    takes (varshIn0 yaml xml).st 259 .store [.key vPath] .str none = true ∧
    takes (varshIn0 yaml xml).st 260 .store [.key vSet] .null none = true ∧
    takes (varshIn0 yaml xml).st 261 .store [.key vSetFile] .str none = true ∧
    takes (varshIn0 yaml xml).st 111 .store [.key vOutput] .str none = true ∧
    lastOnes.all (fun x => takes (varshIn0 yaml xml).st x.1 .store (pathOf x.2.1) x.2.2.1 x.2.2.2) = true ∧
    isFlag (varshIn0 yaml xml).st 262 [.key vList] = true ∧ isFlag (varshIn0 yaml xml).st 263 [.key vLen] = true ∧
    isFlag (varshIn0 yaml xml).st 80 [.key vPayloadIn] = true ∧ isFlag (varshIn0 yaml xml).st 112 [.key vPayload] = true ∧
    isFlag (varshIn0 yaml xml).st 102 pFlatten = true ∧ isFlag (varshIn0 yaml xml).st 101 pExpand = true := by
  intro yaml xml
  cases yaml <;> cases xml <;>
    exact ⟨by kernel_refl, by kernel_refl, by kernel_refl, by kernel_refl, by kernel_refl, by kernel_refl, by kernel_refl, by kernel_refl,
      by kernel_refl, by kernel_refl, by kernel_refl, by kernel_refl, by kernel_refl, by kernel_refl⟩

theorem keyed_keys {s : St} (h : keyed s = true) : ∀ a o, s.entry a = some o → ∀ e ∈ o.path, ∃ k, e = PathElem.key k := by
  intro a o ho e he
  unfold keyed at h
  have := List.all_eq_true.1 (List.all_eq_true.1 h _ (find_mem ho)) e he
  cases e with
  | key k => exact ⟨k, rfl⟩
  | index i => cases this

theorem tidy_apart' {s : St} (h : tidy s = true) : ∀ a b o o', s.entry a = some o → s.entry b = some o' → a ≠ b → Diverge o.path o'.path := by
  unfold tidy at h
  simp only [Bool.and_eq_true, List.all_eq_true, Bool.or_eq_true, decide_eq_true_eq, Bool.not_eq_true'] at h
  intro a b o o' ha hb hne
  constructor
  · intro hp
    rcases h.2 _ (find_mem ha) _ (find_mem hb) with h1 | h1
    · exact hne h1
    · rw [List.isPrefixOf_iff_prefix.2 hp] at h1; cases h1
  · intro hp
    rcases h.2 _ (find_mem hb) _ (find_mem ha) with h1 | h1
    · exact hne h1.symm
    · rw [List.isPrefixOf_iff_prefix.2 hp] at h1; cases h1

/-! ## Words and values -/

/-- The value a word has for an option of a type; without a type it is read as a value. -/
def typed (w : World) (ty : Ty) (t : Text) : Option Val :=
  match ty with
  | .bool => some (.bool (ParseBool.parseBool t.bytes))
  | .int => match parseInt t with
    | .ok x => some x
    | _ => none
  | .str => some (.str t.bytes)
  | _ => reading w t

/-- The types varsh uses. -/
def plainTy (ty : Ty) : Bool := match ty with
  | .bool => true | .int => true | .str => true | .null => true
  | _ => false

theorem argWords_none {lim : Int32 → Nat} {k : Int32} : ∀ (ids : List Int32) (rest : List Text), k ∉ ids → argWords lim k ids rest = []
  | [], _, _ => rfl
  | i :: ids, rest, h => by
    simp only [List.mem_cons, not_or] at h
    have := argWords_none (lim := lim) (k := k) ids (rest.drop (if lim i = 0 then rest.length else lim i)) h.2
    unfold argWords at this ⊢
    simp only [shares]
    rw [List.filter_cons_of_neg (by simpa using fun e => h.1 e.symm)]
    exact this

/-- All mentions of an entry that takes a word have one. -/
theorem chain_words {w : World} {c : Config} (hc : c.action = .store ∨ c.action = .append) {a r : Val} {ws : List (Option Text)}
    (h : Chain (Says w c) a ws r) : ws = (ws.filterMap id).map some := by
  induction h with
  | nil => rfl
  | cons h1 _ ih =>
    cases h1 with
    | store => simpa using ih
    | first => simpa using ih
    | append => simpa using ih
    | const h => rcases hc with hc | hc <;> rw [hc] at h <;> cases h
    | yes h => rcases hc with hc | hc <;> rw [hc] at h <;> cases h
    | no h => rcases hc with hc | hc <;> rw [hc] at h <;> cases h
    | count h => rcases hc with hc | hc <;> rw [hc] at h <;> cases h

theorem optWords_words (k : Int32) (es : List Event) : (optWords k es).filterMap id = words k es := by
  unfold optWords words
  rw [List.filterMap_map]
  rfl

theorem parseInt_nonnull {t : Text} : parseInt t ≠ .ok .null := by
  intro h
  unfold parseInt parseUInt at h
  dsimp only at h
  repeat' split at h
  all_goals cases h

theorem parseArg_typed {w : World} {c : Config} (ha : hasArg c.action = true) (hty : plainTy c.ty = true) {t : Text} {x : Val}
    (h : parseArg w c (some t) = .ok x) : typed w c.ty t = nonNull x ∧ (c.ty ≠ .null → x ≠ .null) := by
  unfold parseArg at h
  rw [if_pos ha] at h
  dsimp only at h
  cases hc : c.ty <;> rw [hc] at h hty <;> first | (cases hty; done) | skip
  · cases h
    exact ⟨rfl, fun e => absurd rfl e⟩
  · cases h; exact ⟨rfl, fun _ => nofun⟩
  · simp only [typed]
    have h : parseInt t = .ok x := h
    rw [h]
    have : x ≠ .null := by rintro rfl; exact parseInt_nonnull h
    exact ⟨by cases x <;> first | rfl | exact absurd rfl this, fun _ => this⟩
  · cases h; exact ⟨rfl, fun _ => nofun⟩

section
variable {w : World} {fuel : Nat} {cs : List Call} {s t : St} {es : List Event} {rest : List Text} {v : Val}

/-- At the path of an entry is its value, or nothing. -/
theorem at_entry (hp : 64 ≤ w.p) (hs : Reached cs s.reg) (ht : tidy s = true) (hk : keyed s = true)
    (h : parse w fuel s es rest = some (.returned t v)) {k : Int32} {o : Opt} (ho : s.entry k = some o) (x : Val) :
    getPath? v o.path = some x ↔ HasValue v o.path x :=
  ⟨fun h1 => ⟨h1, by
    obtain ⟨_, _, _, _, h2, _⟩ := (apart_shaped hp hs h (tidy_apart' ht) (keyed_keys hk)).at_ k o x ho h1
    exact h2⟩, fun h1 => h1.1⟩

/-- The value of an option with a word: the last one, or the default. -/
theorem stored (hp : 64 ≤ w.p) (hs : Reached cs s.reg) (ht : tidy s = true) (hk : keyed s = true)
    (h : parse w fuel s es rest = some (.returned t v)) {k : Int32} {p : VPath} {ty : Ty} {d : Option Val}
    (hty : plainTy ty = true) (hd : ty = .null → d = none) (he : takes s k .store p ty d = true) :
    getPath? v p = match (words k es).getLast? with
      | some t => typed w ty t
      | none => d := by
  unfold takes at he
  split at he
  · cases he
  · next o ho =>
    simp only [Bool.and_eq_true, decide_eq_true_eq, Bool.not_eq_true'] at he
    obtain ⟨⟨⟨⟨⟨⟨ha, rfl⟩, rfl⟩, henv⟩, hdef⟩, hgr⟩, harg⟩ := he
    have hdef := hasDefault_eq hdef
    have henv : envWords w o.cfg = [] := by unfold envWords; rw [Option.isNone_iff_eq_none.1 henv]
    have harg : argWords (limit w s) k s.reg.arguments rest = [] := argWords_none _ _ (by simpa using harg)
    have hat := at_entry hp hs ht hk h ho
    obtain ⟨r, h1, h2, h3⟩ := words_in_order_partial hp hs (tidy_apart ht) (tidy_noConfig ht) h ho (by rw [ha]; rfl)
    rw [henv, harg, List.append_nil, List.nil_append] at h1
    have hws := chain_words (.inl ha) h1
    rw [optWords_words] at hws
    have hnodef : o.path ≠ [] ∧ (∀ x, getPath? v o.path ≠ some x) → getPath? v o.path = none := by
      intro hx
      cases hg : getPath? v o.path with
      | none => rfl
      | some y => exact absurd hg (hx.2 y)
    cases hl : (words k es).getLast? with
    | none =>
      rw [List.getLast?_eq_none_iff] at hl
      rw [hl] at hws
      have hdv := default_in_group_partial hp hs (tidy_apart ht) (tidy_noConfig ht) h ho (by rw [ha]; rfl) (by rw [ha]; nofun)
        (by rw [henv, harg, hws]; rfl)
      cases d with
      | none =>
        cases hg : getPath? v o.path with
        | none => rfl
        | some y =>
          obtain ⟨h4, h5⟩ := (hat y).1 hg
          rw [hws] at h1
          cases h1
          obtain ⟨d', h6, _⟩ := h3 (by unfold start; rw [if_neg (by rw [ha]; nofun)]) y ⟨h4, h5⟩
          rw [hdef] at h6; cases h6
      | some d =>
        have hdn : d ≠ .null := by
          rintro rfl
          unfold hasDefault at *
          simp_all [sameScalar]
        refine (hat d).2 ((hdv ?_ d).2 ⟨⟨d, hdef, by rw [ha]⟩, hdn⟩)
        intro n hn g hg hx
        simp only [Option.isNone_some, Bool.false_or] at hgr
        unfold freeGroups at hgr
        have := List.all_eq_true.1 hgr n hn
        rw [hg] at this
        dsimp only at this
        rw [hx] at this
        cases this
    | some tx =>
      obtain ⟨ys, hys⟩ := List.getLast?_eq_some_iff.1 hl
      rw [hys, List.map_append] at hws
      rw [hws] at h1
      obtain ⟨t', e, h4, _⟩ := last_word ha h1
      cases e
      obtain ⟨h5, h6⟩ := parseArg_typed (by rw [ha]; rfl) hty h4
      dsimp only
      rw [h5]
      by_cases hr : r = .null
      · subst hr
        have hty0 : o.cfg.ty = .null := Decidable.by_contra fun hne => h6 hne rfl
        cases hg : getPath? v o.path with
        | none => rfl
        | some y =>
          obtain ⟨d', h7, _⟩ := h3 rfl y ((hat y).1 hg)
          rw [hdef, hd hty0] at h7; cases h7
      · rw [(h2 hr).1]
        cases r <;> first | rfl | exact absurd rfl hr

/-- The value of an option whose words are collected. -/
theorem collected (hp : 64 ≤ w.p) (hs : Reached cs s.reg) (ht : tidy s = true) (hk : keyed s = true)
    (h : parse w fuel s es rest = some (.returned t v)) {k : Int32} {p : VPath}
    (he : takes s k .append p .str none = true) :
    getPath? v p = if words k es = [] then none else some (.list ((words k es).map fun t => .str t.bytes)) := by
  unfold takes at he
  split at he
  · cases he
  · next o ho =>
    simp only [Bool.and_eq_true, decide_eq_true_eq, Bool.not_eq_true'] at he
    obtain ⟨⟨⟨⟨⟨⟨ha, hty⟩, rfl⟩, henv⟩, hdef⟩, _⟩, harg⟩ := he
    have hdef := hasDefault_eq hdef
    have henv : envWords w o.cfg = [] := by unfold envWords; rw [Option.isNone_iff_eq_none.1 henv]
    have harg : argWords (limit w s) k s.reg.arguments rest = [] := argWords_none _ _ (by simpa using harg)
    have hat := at_entry hp hs ht hk h ho
    obtain ⟨r, h1, h2, h3⟩ := words_in_order_partial hp hs (tidy_apart ht) (tidy_noConfig ht) h ho (by rw [ha]; rfl)
    rw [henv, harg, List.append_nil, List.nil_append] at h1
    have hws := chain_words (.inr ha) h1
    rw [optWords_words] at hws
    rw [hws] at h1
    have hvals : ∀ {ws : List Text} {xs : List Val}, Values w o.cfg (ws.map some) xs → xs = ws.map fun t => .str t.bytes := by
      intro ws
      induction ws with
      | nil => intro xs h; cases h; rfl
      | cons a ws ih =>
        intro xs h
        cases h with
        | cons h4 _ h5 =>
          rw [ih h5]
          unfold parseArg at h4
          rw [if_pos (by rw [ha]; rfl), hty] at h4
          cases h4; rfl
    rcases appended_in_order ha h1 with ⟨h4, rfl⟩ | ⟨xs, rfl, h4⟩
    · rw [if_pos (by simpa using h4)]
      cases hg : getPath? v o.path with
      | none => rfl
      | some y =>
        obtain ⟨d', h7, _⟩ := h3 rfl y ((hat y).1 hg)
        rw [hdef] at h7; cases h7
    · rw [hvals h4] at h2
      rw [(h2 nofun).1, if_neg]
      intro hnil
      rw [hnil] at h1
      have : start o.cfg = .null := by unfold start; rw [if_neg (by rw [ha]; nofun)]
      rw [this] at h1
      cases h1

/-- The value of a flag: true if it is mentioned, false or nothing otherwise. -/
theorem flagged (hp : 64 ≤ w.p) (hs : Reached cs s.reg) (ht : tidy s = true)
    (h : parse w fuel s es rest = some (.returned t v)) {k : Int32} {p : VPath} (he : isFlag s k p = true) :
    asBool ((getPath? v p).getD (.bool false)) = .ok (mentioned k es) := by
  unfold isFlag at he
  split at he
  · cases he
  · next o ho =>
    simp only [Bool.and_eq_true, decide_eq_true_eq] at he
    obtain ⟨⟨ha, rfl⟩, hdef⟩ := he
    have hdef := hasDefault_eq hdef
    obtain ⟨h1, h2⟩ := flag_partial hp hs (tidy_apart ht) (tidy_noConfig ht) h ho ha
    cases hm : mentioned k es with
    | true =>
      have : ∃ e ∈ es, e.id = k := by
        obtain ⟨e, he, hk⟩ := List.any_eq_true.1 hm
        exact ⟨e, he, by simpa using hk⟩
      rw [((h1 this _).2 rfl).1]
      rfl
    | false =>
      cases hg : getPath? v o.path with
      | none => rfl
      | some x =>
        by_cases hx : x = .null
        · subst hx; rfl
        · obtain ⟨d, h3, h4⟩ := h2 (fun e he hk => by
            have : mentioned k es = true := List.any_eq_true.2 ⟨e, he, by simpa using hk⟩
            rw [hm] at this; cases this) x ⟨hg, hx⟩
          rw [hdef] at h3
          cases h3
          rw [ha] at h4
          subst h4; rfl

end

/-! ## One input -/

/-- What the configuration says. -/
structure Facts (conf : Val) (a : Asked) (h : How) (x : Option Val) : Prop where
  inFormat : inputFormat conf = .ok (some h.inFormat)
  payloadIn : boolOr conf vPayloadIn false = .ok a.payloadIn
  payload : boolOr conf vPayload false = .ok a.payload
  list : boolOr conf vList false = .ok a.list
  length : boolOr conf vLen false = .ok a.length
  flatten : flagAt conf pFlatten = .ok a.flatten
  expand : flagAt conf pExpand = .ok a.expand
  params : getPath conf pParams = .ok h.params
  sparams : (getKey? conf kSparams).getD .null = h.sparams
  schemas : getKey? conf vSchemas = if a.schemas = [] then none else some (.list (a.schemas.map .str))
  set : getKey? conf vSet = x
  path : getKey? conf vPath = a.path.map .str

theorem validAll_meets (L : Lib) (dirs : List Bytes) (d : Val) : ∀ us : List Bytes, validAll L dirs d (us.map .str) = meets L dirs d us
  | [] => rfl
  | u :: us => by
    rw [List.map_cons, validAll, meets, validAll_meets L dirs d us]

theorem process_answer {L : Lib} {conf : Val} {a : Asked} {h : How} {x : Option Val} (f : Facts conf a h x) (src : Option Bytes) :
    process L a.dirs conf (some h.outFormat) src = answer L a h x src := by
  have hre : ∀ d, reshape L conf d = prepared L a h d := by
    intro d
    unfold reshape prepared
    rw [f.flatten, f.expand, f.params]
    cases a.flatten <;> cases a.expand <;> rfl
  have hch : ∀ d, checkSchemas L a.dirs conf d = meets L a.dirs d a.schemas := by
    intro d
    unfold checkSchemas
    rw [f.schemas]
    split
    · next e =>
      split at e
      · next h1 => rw [h1]; rfl
      · cases e
    · next e =>
      split at e
      · cases e
      · cases e; exact validAll_meets L a.dirs d a.schemas
    · next e => split at e <;> cases e
    · next h1 h2 e =>
      split at e
      · cases e
      · cases e; exact absurd rfl (h1 _)
  have hse : ∀ d, select L conf d = shown a.path x d := by
    intro d
    unfold select shown
    rw [f.set, f.path]
    cases x <;> cases a.path <;> rfl
  have hout : ∀ d, output L conf h.outFormat d = show_ L a h d := by
    intro d
    unfold output show_
    rw [f.list, f.length, f.payload, f.sparams]
    cases a.list <;> cases a.length <;> cases a.payload <;> rfl
  unfold process answer
  rw [f.inFormat, f.payloadIn]
  simp only [hre, hch, hse, hout]
  rfl

/-! ## All inputs -/

theorem guess_text (L : Lib) (w : World) (t : Text) : ∃ b, Build.asString L.fltText (Guess.guess w.fo t.erange t.bytes) = .ok b ∧ named L w t = cText b := by
  unfold named
  cases h : Build.asString L.fltText (Guess.guess w.fo t.erange t.bytes) with
  | ok b => exact ⟨b, rfl, rfl⟩
  | _ =>
    exfalso
    revert h
    unfold Guess.guess
    dsimp only
    repeat' split
    all_goals first
      | (intro h; cases h; done)
      | (unfold Guess.int10; dsimp only; repeat' split
         all_goals (intro h; cases h))

theorem inputsLoop_answers {L : Lib} {w : World} {conf : Val} {a : Asked} {h : How} {x : Option Val} (f : Facts conf a h x) :
    (inputsLoop L a.dirs conf (some h.outFormat) [none] = answers (answer L a h x) [none]) ∧ ∀ ts : List Text,
    inputsLoop L a.dirs conf (some h.outFormat) (ts.map fun t => some (Guess.guess w.fo t.erange t.bytes)) =
      answers (answer L a h x) (ts.map fun t => some (named L w t)) := by
  constructor
  · simp only [inputsLoop, answers, oneInput, process_answer f]
    rfl
  · intro ts
    induction ts with
    | nil => rfl
    | cons t ts ih =>
      obtain ⟨b, h1, h2⟩ := guess_text L w t
      have : oneInput L a.dirs conf (some h.outFormat) (some (Guess.guess w.fo t.erange t.bytes)) = answer L a h x (some (named L w t)) := by
        unfold oneInput
        dsimp only
        rw [h1, h2]
        exact process_answer f _
      simp only [List.map_cons, inputsLoop, answers, this]
      rw [ih]
      rfl

section
variable {w : World} {fuel : Nat} {cs : List Call} {s t : St} {es : List Event} {rest : List Text} {v : Val}

/-- The entry takes words that belong to no option. -/
def takesRest (s : St) (k : Int32) (p : VPath) : Bool :=
  match s.entry k with
  | none => false
  | some o => decide (o.cfg.action = .append) && decide (o.cfg.ty = .null) && decide (o.path = p) && (optGet o.cfg kEnv).isNone &&
    hasDefault o.cfg none && decide (s.reg.arguments = [k])

theorem varsh_rest : ∀ yaml xml, takesRest (varshIn0 yaml xml).st 279 [.key vInput] = true ∧ ∀ w, limit w (varshIn0 yaml xml).st 279 = 0 := by
  intro yaml xml
  cases yaml <;> cases xml <;> exact ⟨by kernel_refl, fun w => by kernel_refl⟩

/-- The words that belong to no option. -/
theorem remaining (hp : 64 ≤ w.p) (hs : Reached cs s.reg) (ht : tidy s = true) (hk : keyed s = true)
    (h : parse w fuel s es rest = some (.returned t v)) {k : Int32} {p : VPath}
    (he : takesRest s k p = true) (hlim : limit w s k = 0) (hes : ∀ e ∈ es, e.id ≠ k) :
    getPath? v p = if rest = [] then none else some (.list (rest.map fun t => Guess.guess w.fo t.erange t.bytes)) := by
  unfold takesRest at he
  split at he
  · cases he
  · next o ho =>
    simp only [Bool.and_eq_true, decide_eq_true_eq] at he
    obtain ⟨⟨⟨⟨⟨ha, hty⟩, rfl⟩, henv⟩, hdef⟩, harg⟩ := he
    have hdef := hasDefault_eq hdef
    have henv : envWords w o.cfg = [] := by unfold envWords; rw [Option.isNone_iff_eq_none.1 henv]
    have harg : argWords (limit w s) k s.reg.arguments rest = rest.map some := by
      rw [harg]
      simp [argWords, shares, hlim]
    have hopt : optWords k es = [] := by
      unfold optWords
      rw [List.map_eq_nil_iff, List.filter_eq_nil_iff]
      intro e he
      simpa using hes e he
    have hat := at_entry hp hs ht hk h ho
    obtain ⟨r, h1, h2, h3⟩ := words_in_order_partial hp hs (tidy_apart ht) (tidy_noConfig ht) h ho (by rw [ha]; rfl)
    rw [henv, harg, hopt, List.append_nil, List.nil_append] at h1
    have hvals : ∀ {ws : List Text} {xs : List Val}, Values w o.cfg (ws.map some) xs → xs = ws.map fun t => Guess.guess w.fo t.erange t.bytes := by
      intro ws
      induction ws with
      | nil => intro xs h; cases h; rfl
      | cons a ws ih =>
        intro xs h
        cases h with
        | cons h4 _ h5 =>
          rw [ih h5]
          unfold parseArg at h4
          rw [if_pos (by rw [ha]; rfl), hty] at h4
          cases h4; rfl
    rcases appended_in_order ha h1 with ⟨h4, rfl⟩ | ⟨xs, rfl, h4⟩
    · rw [if_pos (by simpa using h4)]
      cases hg : getPath? v o.path with
      | none => rfl
      | some y =>
        obtain ⟨d', h7, _⟩ := h3 rfl y ((hat y).1 hg)
        rw [hdef] at h7; cases h7
    · rw [hvals h4] at h2
      rw [(h2 nofun).1, if_neg]
      intro hnil
      rw [hnil] at h1
      have : start o.cfg = .null := by unfold start; rw [if_neg (by rw [ha]; nofun)]
      rw [this] at h1
      cases h1

end

/-! ## The theorems -/

theorem getPath?_one (v : Val) (k : Bytes) : getPath? v [.key k] = getKey? v k := by
  unfold getPath?
  simp only [getElem?]
  cases getKey? v k <;> rfl

theorem boolOr_asBool (v : Val) (k : Bytes) : boolOr v k false = asBool ((getPath? v [.key k]).getD (.bool false)) := by
  rw [getPath?_one]
  unfold boolOr
  cases getKey? v k <;> rfl

theorem flagAt_asBool (v : Val) (p : VPath) : flagAt v p = asBool ((getPath? v p).getD (.bool false)) := by
  unfold flagAt getPathDef
  cases getPath? v p <;> rfl

/-- C111.  The parameters for writing, flattening and expanding are the last words given for them, or the defaults. -/
theorem parameters {w : World} (hp : 64 ≤ w.p) {fuel : Nat} {name : Bytes} {yaml xml : Bool} {P : Parser} (hP : varsh w name yaml xml = some P)
    {es : List Event} {rest : List Text} {t : St} {v : Val} (h : parse w fuel P.st es rest = some (.returned t v)) :
    ∀ x ∈ lastOnes, getPath? v (pathOf x.2.1) = match (words x.1 es).getLast? with
      | some t => typed w x.2.2.1 t
      | none => x.2.2.2 := by
  rw [varsh_eq] at hP
  cases hP
  obtain ⟨cs, hs⟩ := (varsh_built w name yaml xml).reached
  obtain ⟨hk, _, _, _, _, _, _, hl, _⟩ := varsh_entries yaml xml
  intro x hx
  have hpl : plainTy x.2.2.1 = true ∧ (x.2.2.1 = .null → x.2.2.2 = none) := by
    have : (lastOnes.all fun x => plainTy x.2.2.1 && decide (x.2.2.1 ≠ .null)) = true := by decide
    have := List.all_eq_true.1 this x hx
    simp only [Bool.and_eq_true, decide_eq_true_eq] at this
    exact ⟨this.1, fun e => absurd e this.2⟩
  exact stored hp hs (varsh_tidy yaml xml) hk h hpl.1 hpl.2 (List.all_eq_true.1 hl x hx)

/-- How varsh reads and writes with the configuration `v`. -/
def howOf (v : Val) (i o : Format) : How := ⟨i, o, (getPath? v pParams).getD .null, (getKey? v kSparams).getD .null⟩

theorem choose_congr {a b : Val} : ∀ (tbl : List (Bytes × Format)) (f : Option Format), (∀ x ∈ tbl, getKey? a x.1 = getKey? b x.1) →
    choose a tbl f = choose b tbl f
  | [], _, _ => rfl
  | (k, f') :: r, f, h => by
    have h1 : boolOr a k false = boolOr b k false := by unfold boolOr; rw [h (k, f') (by simp)]
    simp only [choose, h1]
    cases boolOr b k false with
    | ok x => exact choose_congr r _ (fun x hx => h x (by simp [hx]))
    | _ => rfl

theorem Facts.withSet {m : List (Bytes × Val)} {a : Asked} {h : How} {x : Option Val} (f : Facts (.map m) a h x) (y : Val) :
    Facts (.map (AMap.set m vSet y)) a h (some y) := by
  have hk : ∀ k, k ≠ vSet → getKey? (.map (AMap.set m vSet y)) k = getKey? (.map m) k := fun k hne => AMap.get_set_other m vSet k y hne
  have hb : ∀ k, k ≠ vSet → boolOr (.map (AMap.set m vSet y)) k false = boolOr (.map m) k false := by
    intro k hne; unfold boolOr; rw [hk k hne]
  have hpath : ∀ k p, k ≠ vSet → getPath? (.map (AMap.set m vSet y)) (.key k :: p) = getPath? (.map m) (.key k :: p) := by
    intro k p hne
    rw [getPath?, getPath?]
    simp only [getElem?, hk k hne]
  refine ⟨?_, ?_, ?_, ?_, ?_, ?_, ?_, ?_, ?_, ?_, ?_, ?_⟩
  · rw [← f.inFormat]
    exact choose_congr _ _ (fun x hx => hk _ (by
      have : (inputs.all fun x => decide (x.1 ≠ vSet)) = true := by decide
      simpa using List.all_eq_true.1 this x hx))
  · rw [hb _ (by decide)]; exact f.payloadIn
  · rw [hb _ (by decide)]; exact f.payload
  · rw [hb _ (by decide)]; exact f.list
  · rw [hb _ (by decide)]; exact f.length
  · rw [← f.flatten, flagAt_asBool, flagAt_asBool]; unfold pFlatten; rw [hpath _ _ (by decide)]
  · rw [← f.expand, flagAt_asBool, flagAt_asBool]; unfold pExpand; rw [hpath _ _ (by decide)]
  · rw [← f.params]
    unfold pParams
    rw [getPath, getPath]
    simp only [getElemC, getKeyC]
    rw [AMap.get_set_other _ _ _ _ (by decide)]
  · rw [hk _ (by decide)]; exact f.sparams
  · rw [hk _ (by decide)]; exact f.schemas
  · exact AMap.get_set_self _ _ _
  · rw [hk _ (by decide)]; exact f.path

theorem getPath?_above {v x : Val} (p q : VPath) (h : getPath? v (p ++ q) = some x) : ∃ y, getPath? v p = some y := by
  rw [getPath?_append] at h
  cases hp : getPath? v p with
  | none => rw [hp] at h; cases h
  | some y => exact ⟨y, rfl⟩

theorem mapM_text (f : UInt64 → Bytes) : ∀ ts : List Text, (ts.map fun t => Val.str t.bytes).mapM (Build.asString f) = Out.ok (ts.map (·.bytes))
  | [] => rfl
  | t :: ts => by
    simp only [List.map_cons, List.mapM_cons, mapM_text f ts]
    rfl

/-- C111.  Whenever `Parse` returns, varsh does what the options and the other words ask for, in the formats of C110 and
with the parameters above: every input is read, flattened or expanded, compared with the schemas, a value is put in or
a part taken out, and the document, its keys or its length are written.  `getopt` reports no option with the number of
the words that belong to no option. -/
theorem does_what_is_asked {w : World} (hp : 64 ≤ w.p) {fuel : Nat} {name : Bytes} {yaml xml : Bool} {P : Parser}
    (hP : varsh w name yaml xml = some P) {es : List Event} {rest : List Text} (hes : ∀ e ∈ es, e.id ≠ 279) {t : St} {v : Val}
    (h : parse w fuel P.st es rest = some (.returned t v)) (L : Lib) :
    ∃ i o, inputFormat v = .ok (some i) ∧ outputFormat v = .ok (some o) ∧
      varshMain L v = carriedOut L w (asked es rest w) (howOf v i o) := by
  obtain ⟨i, hi, _⟩ := input_format hp hP h
  obtain ⟨o, ho, _⟩ := output_format hp hP h
  have hpar := parameters hp hP h
  refine ⟨i, o, hi, ho, ?_⟩
  rw [varsh_eq] at hP
  cases hP
  obtain ⟨cs, hs⟩ := (varsh_built w name yaml xml).reached
  have ht := varsh_tidy yaml xml
  obtain ⟨hk, e257, e258, e259, e260, e261, e111, _, f262, f263, f80, f112, f102, f101⟩ := varsh_entries yaml xml
  obtain ⟨m, rfl, _⟩ : ∃ m, v = .map m ∧ AMap.Sorted m := (apart_shaped hp hs h (tidy_apart' ht) (keyed_keys hk)).above [] v rfl (.inl rfl)
  have hinp := remaining hp hs ht hk h (varsh_rest yaml xml).1 ((varsh_rest yaml xml).2 w) hes
  have hdirs := collected hp hs ht hk h e257
  have hsch := collected hp hs ht hk h e258
  have hpath := stored hp hs ht hk h rfl (fun e => by cases e) e259
  have hset := stored hp hs ht hk h rfl (fun _ => rfl) e260
  have hsf := stored hp hs ht hk h rfl (fun e => by cases e) e261
  have hout := stored hp hs ht hk h rfl (fun e => by cases e) e111
  rw [getPath?_one] at hinp hdirs hsch hpath hset hsf hout
  have opt : ∀ (o : Option Text), (match o with | some t => typed w .str t | none => none) = (o.map (·.bytes)).map Val.str := by
    intro o; cases o <;> rfl
  rw [opt] at hpath hsf hout
  have facts : Facts (.map m) (asked es rest w) (howOf (.map m) i o) (asked es rest w).set := by
    refine ⟨hi, ?_, ?_, ?_, ?_, ?_, ?_, ?_, rfl, ?_, ?_, hpath⟩
    · rw [boolOr_asBool]; exact flagged hp hs ht h f80
    · rw [boolOr_asBool]; exact flagged hp hs ht h f112
    · rw [boolOr_asBool]; exact flagged hp hs ht h f262
    · rw [boolOr_asBool]; exact flagged hp hs ht h f263
    · rw [flagAt_asBool]; exact flagged hp hs ht h f102
    · rw [flagAt_asBool]; exact flagged hp hs ht h f101
    · have h1 := hpar (273, vExtensionParamsNoSimpleLists, .bool, some (.bool false)) (by simp [lastOnes])
      have h2 : ∃ x, getPath? (.map m) (pathOf vExtensionParamsNoSimpleLists) = some x := by
        rw [h1]
        dsimp only
        split <;> exact ⟨_, rfl⟩
      obtain ⟨x, h2⟩ := h2
      have h3 : pathOf vExtensionParamsNoSimpleLists = pParams ++ [.key [110, 111, 83, 105, 109, 112, 108, 101, 76, 105, 115, 116, 115]] := by kernel_refl
      rw [h3] at h2
      obtain ⟨y, h4⟩ := getPath?_above _ _ h2
      rw [getPath_some h4]
      unfold howOf
      rw [h4]; rfl
    · rw [hsch]
      unfold asked
      simp only [List.map_eq_nil_iff, List.map_map]
      rfl
    · rw [hset]
      unfold asked
      cases (words 260 es).getLast? <;> rfl
  have hd : schemaDirs L (.map m) = .ok (asked es rest w).dirs := by
    unfold schemaDirs
    rw [hdirs]
    unfold asked
    by_cases hw : words 257 es = []
    · rw [if_pos hw, hw]; rfl
    · rw [if_neg hw]
      dsimp only [listOf]
      show (do let ps ← List.mapM (Build.asString L.fltText) _; _) = _
      rw [mapM_text]
      rfl
  have loop : ∀ conf x, Facts conf (asked es rest w) (howOf (.map m) i o) x → getKey? conf vInput = getKey? (.map m) vInput →
      ∃ srcs, inputsOf conf = .ok srcs ∧ inputsLoop L (asked es rest w).dirs conf (some o) srcs =
        answers (answer L (asked es rest w) (howOf (.map m) i o) x) (if rest = [] then [none] else rest.map fun t => some (named L w t)) := by
    intro conf x f hc
    obtain ⟨h1, h2⟩ := inputsLoop_answers (L := L) (w := w) f
    unfold inputsOf
    rw [hc, hinp]
    by_cases hr : rest = []
    · rw [if_pos hr, if_pos hr]
      exact ⟨_, rfl, h1⟩
    · rw [if_neg hr, if_neg hr]
      refine ⟨_, rfl, ?_⟩
      rw [List.map_map]
      exact h2 rest
  have tgt : ∀ conf, getKey? conf vOutput = getKey? (.map m) vOutput → target L conf = .ok ((asked es rest w).output.map cText) := by
    intro conf hc
    unfold target
    rw [hc, hout]
    unfold asked
    cases (words 111 es).getLast? <;> rfl
  unfold varshMain carriedOut setUp
  rw [ho, hd]
  cases hsfile : (asked es rest w).setFile with
  | none =>
    have h0 : withSetFile L (.map m) = .ok (.map m) := by
      unfold withSetFile
      rw [hsf]
      unfold asked at hsfile
      dsimp only at hsfile
      rw [hsfile]; rfl
    obtain ⟨srcs, h1, h2⟩ := loop _ _ facts rfl
    have h3 : (do let conf ← withSetFile L (.map m); let file ← target L conf; pure (some o, (asked es rest w).dirs, conf, file)) =
        Out.ok (some o, (asked es rest w).dirs, Val.map m, (asked es rest w).output.map cText) := by
      rw [h0]
      show (do let file ← target L (.map m); _) = _
      rw [tgt _ rfl]; rfl
    show (match (do let conf ← withSetFile L (.map m); let file ← target L conf; pure (some o, (asked es rest w).dirs, conf, file) : Out _) with
      | .ok (stype, dirs, conf, file) => _
      | o => _) = _
    rw [h3]
    dsimp only
    rw [h1]
    dsimp only
    rw [h2]
    rfl
  | some fl =>
    have h0 : withSetFile L (.map m) = (do let x ← L.readAny (cText fl); .ok (.map (AMap.set m vSet x))) := by
      unfold withSetFile
      rw [hsf]
      unfold asked at hsfile
      dsimp only at hsfile
      rw [hsfile]; rfl
    show (match (do let conf ← withSetFile L (.map m); let file ← target L conf; pure (some o, (asked es rest w).dirs, conf, file) : Out _) with
      | .ok (stype, dirs, conf, file) => _
      | o => _) = _
    rw [h0]
    dsimp only
    cases hr : L.readAny (cText fl) with
    | ok x =>
      obtain ⟨srcs, h1, h2⟩ := loop _ _ (facts.withSet x) (AMap.get_set_other _ _ _ _ (by decide))
      have h3 : (do let file ← target L (.map (AMap.set m vSet x)); pure (some o, (asked es rest w).dirs, Val.map (AMap.set m vSet x), file)) =
          Out.ok (some o, (asked es rest w).dirs, Val.map (AMap.set m vSet x), (asked es rest w).output.map cText) := by
        rw [tgt (.map (AMap.set m vSet x)) (AMap.get_set_other _ _ _ _ (by decide))]; rfl
      show (match (do let file ← target L (.map (AMap.set m vSet x)); pure (some o, (asked es rest w).dirs, Val.map (AMap.set m vSet x), file) : Out _) with
        | .ok (stype, dirs, conf, file) => _
        | o => _) = _
      rw [h3]
      dsimp only
      rw [h1]
      dsimp only
      rw [h2]
      rfl
    | throw e => rfl
    | ub => rfl

end Verif.Tool
