import Verif.Args.GenSound
import Verif.Args.ParseExamples
/-!
# Which documents the schema of a parser accepts
-/

namespace Verif.Args
open Verif JsonDrv Schema

theorem filter_le_one {l : List Int32} (hn : l.Nodup) (p : Int32 → Bool) :
    (l.filter p).length ≤ 1 ↔ ∀ a ∈ l, ∀ b ∈ l, a ≠ b → ¬ (p a = true ∧ p b = true) := by
  constructor
  · intro h a ha b hb hne ⟨h1, h2⟩
    have ma : a ∈ l.filter p := List.mem_filter.2 ⟨ha, h1⟩
    have mb : b ∈ l.filter p := List.mem_filter.2 ⟨hb, h2⟩
    cases hl : l.filter p with
    | nil => rw [hl] at ma; cases ma
    | cons x xs =>
      rw [hl] at h ma mb
      have : xs = [] := by cases xs <;> simp at h ⊢
      subst this
      exact hne ((List.mem_singleton.1 ma).trans (List.mem_singleton.1 mb).symm)
  · intro h
    cases hl : l.filter p with
    | nil => simp
    | cons x xs =>
      cases xs with
      | nil => simp
      | cons y ys =>
        have hn' : (l.filter p).Nodup := List.Nodup.sublist List.filter_sublist hn
        have mx : x ∈ l.filter p := by rw [hl]; simp
        have my : y ∈ l.filter p := by rw [hl]; simp
        rw [hl] at hn'
        have hne : x ≠ y := by rintro rfl; simp at hn'
        obtain ⟨a1, a2⟩ := List.mem_filter.1 mx
        obtain ⟨b1, b2⟩ := List.mem_filter.1 my
        exact absurd ⟨a2, b2⟩ (h x a1 y b1 hne)

/-- C100.  The schema a parser generates accepts exactly the documents that conform to the parser. -/
theorem generated_schema_iff_partial {w : World} (hp : 64 ≤ w.p) {cs : List Call} {s : St} (hs : Reached cs s.reg) (pl : Plain w s) :
    ∃ S, generateSchema w s = .ok S ∧ ∀ E v, SameWorld w E → SortedAbove s v →
      (validateTop E (recursionLimit + 1) S v = some (.ok ⟨false, false⟩) ↔ Conforms w s v) := by
  obtain ⟨M, hM, hiff⟩ := schema_iff hs pl
  refine ⟨.map M, hM, fun E v hE hv => ?_⟩
  rw [caller_accept, hiff E v hv]
  have hpath : ∀ a o, s.entry a = some o → pathOf s a = o.path := by
    intro a o ho; unfold pathOf; rw [ho]; rfl
  have hschema : ∀ a o, s.entry a = some o → ∃ m, valueSchema w o.cfg = .ok (.map m) := by
    intro a o ho
    obtain ⟨m, hm, _⟩ := valueSchema_keys (w := w) (pl.settings a o ho)
    exact ⟨m, hm⟩
  have hleaf : ∀ a o x m, s.entry a = some o → valueSchema w o.cfg = .ok (.map m) →
      (Acc (validate E (101 - o.path.length) o.path.length (.map m) x) ↔ Suits w o.cfg x) := by
    intro a o x m ho hm
    have := pl.short a o ho
    exact valueSchema_iff hp hE (pl.settings a o ho) hm (by omega) (by omega)
  constructor
  · intro h
    refine ⟨h.maps, ?_, ?_, ?_, ?_⟩
    · intro a o x ho hx
      obtain ⟨m, hm⟩ := hschema a o ho
      exact (hleaf a o x m ho hm).1 (h.values a o x m ho hx hm)
    · intro a o ho hr
      exact Option.isSome_iff_exists.1 (h.required a o ho hr)
    · intro n g a b oa ob x y hg hex ha hb hne hoa hob ⟨h1, h2⟩
      refine (filter_le_one (pl.members n g hg).1 _).1 (h.groups n g hg hex).1 a ha b hb hne ⟨?_, ?_⟩
      · rw [hpath a oa hoa, h1]; rfl
      · rw [hpath b ob hob, h2]; rfl
    · intro n g hg hex hr
      have h1 := (h.groups n g hg hex).2 hr
      obtain ⟨a, ha⟩ : ∃ a, a ∈ g.members.filter fun a => (getPath? v (pathOf s a)).isSome := by
        cases hl : g.members.filter fun a => (getPath? v (pathOf s a)).isSome with
        | nil => rw [hl] at h1; cases h1
        | cons a as => exact ⟨a, by simp⟩
      obtain ⟨ha, h2⟩ := List.mem_filter.1 ha
      obtain ⟨o, ho⟩ := (pl.members n g hg).2 a ha
      rw [hpath a o ho] at h2
      obtain ⟨x, hx⟩ := Option.isSome_iff_exists.1 h2
      exact ⟨a, o, x, ha, ho, hx⟩
  · intro h
    refine ⟨h.maps, ?_, ?_, ?_⟩
    · intro a o x m ho hx hm
      exact (hleaf a o x m ho hm).2 (h.suits a o x ho hx)
    · intro a o ho hr
      exact Option.isSome_iff_exists.2 (h.required a o ho hr)
    · intro n g hg hex
      have hle : (g.members.filter fun a => (getPath? v (pathOf s a)).isSome).length ≤ 1 := by
        rw [filter_le_one (pl.members n g hg).1]
        intro a ha b hb hne ⟨h1, h2⟩
        obtain ⟨oa, hoa⟩ := (pl.members n g hg).2 a ha
        obtain ⟨ob, hob⟩ := (pl.members n g hg).2 b hb
        rw [hpath a oa hoa] at h1
        rw [hpath b ob hob] at h2
        obtain ⟨x, hx⟩ := Option.isSome_iff_exists.1 h1
        obtain ⟨y, hy⟩ := Option.isSome_iff_exists.1 h2
        exact h.exclusive n g a b oa ob x y hg hex ha hb hne hoa hob ⟨hx, hy⟩
      refine ⟨hle, fun hr => ?_⟩
      obtain ⟨a, o, x, ha, ho, hx⟩ := h.one n g hg hex hr
      have : a ∈ g.members.filter fun a => (getPath? v (pathOf s a)).isSome :=
        List.mem_filter.2 ⟨ha, by rw [hpath a o ho, hx]; rfl⟩
      have := List.length_pos_of_mem this
      omega

/-! ## A parser that meets the conditions -/

/-- Option -p stores an integer of at least 1 as net/port, -l appends at most two words, -v counts; -q, false unless
given, and -r exclude each other. -/
def exGen : List Call := [.addOption [110, 101, 116, 47, 112] 112 [] [] .store, .addOption [110, 101, 116, 47, 108] 108 [] [] .append,
  .addOption [118] 118 [] [] .count, .addOption [113] 113 [] [] .storeTrue, .addOption [114] 114 [] [] .storeConst,
  .configure 112 (fun c => { withKey kMinimum (.int 1) c with required := true, ty := .int }),
  .configure 108 (fun c => { withKey kMaxArgs (.uint 2) c with ty := .str }),
  .configure 113 (fun c => { withKey kDefault (.bool false) c with groups := [[71]] }),
  .configure 114 (fun c => { withKey kConst (.str [120]) c with groups := [[71]] })]

def exGenSt : St := exGroup exGen [113, 114] true false

theorem exGen_reached : Reached exGen exGenSt.reg := ⟨by simp [exGen, Call.charShort], rfl⟩

theorem exGen_noConfig : NoConfig exGenSt := by
  have key : ∀ x ∈ exGenSt.reg.optionMap, x.2.cfg.action ≠ .config ∧ x.2.cfg.action ≠ .configJson ∧
      x.2.cfg.action ≠ .configYaml ∧ x.2.cfg.action ≠ .configPlist := by decide
  intro k o ho
  exact key _ (find_mem ho)

/-- A step of a path that is a key. -/
def isKey : PathElem → Bool
  | .key _ => true
  | .index _ => false

theorem exGen_plain : Plain exWorld exGenSt := by
  have key : ∀ x ∈ exGenSt.reg.optionMap, ∀ y ∈ exGenSt.reg.optionMap, x.1 ≠ y.1 → ¬ x.2.path <+: y.2.path := by decide
  have keys : ∀ x ∈ exGenSt.reg.optionMap, (∀ e ∈ x.2.path, isKey e = true) ∧ x.2.path.length ≤ 95 := by decide
  have all : ∀ x ∈ exGenSt.reg.optionMap, Settings x.2.cfg ∧ ∀ r, IsDefault x.2.cfg r → r ≠ .null → Fits exWorld x.2.cfg r := by
    intro x hx
    have hx : x ∈ [_, _, _, _, _] := hx
    simp only [List.mem_cons, List.not_mem_nil, or_false] at hx
    rcases hx with rfl | rfl | rfl | rfl | rfl
    all_goals
      refine ⟨⟨by decide, ?_, ?_, ?_, ?_, ?_, ?_, ?_, ?_, ?_⟩, ?_⟩
      all_goals first
        | (intro l h; cases h; done)
        | (intro l h; cases h; rfl)
        | (intro l h; cases h; exact .inl ⟨_, rfl⟩)
        | (intro h; cases h; done)
        | (intro _; exact ⟨_, rfl⟩)
        | (rintro r ⟨d, h, h'⟩ _; cases h; done)
        | (rintro r ⟨d, h, h'⟩ _; cases h; cases h'; rfl)
  refine ⟨?_, ?_, ?_, ?_, ?_, ?_⟩
  · intro a b o o' ha hb hne
    exact ⟨key _ (find_mem ha) _ (find_mem hb) hne, key _ (find_mem hb) _ (find_mem ha) (Ne.symm hne)⟩
  · intro a o ho e he
    have := (keys _ (find_mem ho)).1 e he
    cases e with
    | key k => exact ⟨k, rfl⟩
    | index i => cases this
  · intro a o ho; exact (keys _ (find_mem ho)).2
  · intro a o ho; exact (all _ (find_mem ho)).1
  · intro a o r ho; exact (all _ (find_mem ho)).2 r
  · intro n g hg
    cases List.mem_singleton.1 hg
    refine ⟨by decide, fun a ha => ?_⟩
    rcases List.mem_cons.1 ha with rfl | ha
    · exact ⟨_, rfl⟩
    · cases List.mem_singleton.1 ha; exact ⟨_, rfl⟩

/-- "-p 8 -l x -v -r". -/
def exGenWords : List Event := [⟨112, some ⟨[56], false⟩⟩, ⟨108, some ⟨[120], false⟩⟩, ⟨118, none⟩, ⟨114, none⟩]

/-- A validator on the same machine. -/
def exEnv : Env := ⟨64, fun _ => [], fun _ => .throw .runtime, fun _ => none⟩

/-- What validating a document against the schema of a parser says. -/
def judged (s : St) (v : Val) : Vd :=
  match generateSchema exWorld s with
  | .ok S => alone exEnv S v
  | _ => .abnormal

theorem returns_some {r : Option End} (h : (returns r).isSome = true) : ∃ t v, r = some (.returned t v) := by
  cases r with
  | none => cases h
  | some e => cases e <;> first | exact ⟨_, _, rfl⟩ | cases h

/-- C99: the hypotheses are met by a parser with nested paths, limits, a default and a group. -/
example : ∃ t v, parse exWorld 1 exGenSt exGenWords [] = some (.returned t v) ∧ ∃ S, generateSchema exWorld exGenSt = .ok S ∧
    ∀ E, SameWorld exWorld E → validateTop E (recursionLimit + 1) S v = some (.ok ⟨false, false⟩) := by
  obtain ⟨t, v, e⟩ := returns_some (r := parse exWorld 1 exGenSt exGenWords []) (by decide +kernel)
  exact ⟨t, v, e, generated_schema_accepts_partial (by decide) exGen_reached exGen_noConfig exGen_plain e⟩

/-- The document {"net": {"l": ["x"], "p": 8}, "r": "x", "v": 1}. -/
def exGenDoc : Val := .map [([110, 101, 116], .map [([108], .list [.str [120]]), ([112], .int 8)]), ([114], .str [120]), ([118], .uint 1)]

/-- C100: of three documents for that parser, one conforms; one has a port of 0; one has both members of the group. -/
example : judged exGenSt exGenDoc = .accept ∧ judged exGenSt (.map [([110, 101, 116], .map [([112], .int 0)])]) = .reject ∧
    judged exGenSt (.map [([110, 101, 116], .map [([112], .int 8)]), ([113], .bool true), ([114], .str [120])]) = .reject :=
  ⟨by decide +kernel, by decide +kernel, by decide +kernel⟩

/-- C99, finding: a default is not checked, so `Parse` returns what the schema of the parser rejects. -/
theorem default_rejected_false : (returns (parse exWorld 1 (exPlain exDefault) [] [])).map (judged (exPlain exDefault)) = some .reject := by
  decide +kernel

/-- Options stored as l[0]/f and l[1]/g. -/
def exIndexed : List Call := [.addOption [108, 91, 48, 93, 47, 102] 102 [] [] .store, .addOption [108, 91, 49, 93, 47, 103] 103 [] [] .store]

/-- C99, finding: where paths have indices, an element that was not given is filled with null, and the schema rejects the null. -/
theorem filled_list_rejected_false :
    (returns (parse exWorld 1 (exPlain exIndexed) [⟨103, some ⟨[56], false⟩⟩] [])).map (judged (exPlain exIndexed)) = some .reject := by
  decide +kernel

/-- C100, finding: the schema does not ask that the value of an appending option is a list. -/
theorem append_not_list_false : judged exGenSt (.map [([110, 101, 116], .map [([108], .int 5), ([112], .int 8)])]) = .accept := by decide +kernel

/-- C100, finding: a NaN is accepted as an integer that is at least 1. -/
theorem nan_integer_false : judged exGenSt (.map [([110, 101, 116], .map [([112], .flt 0x7ff8000000000000)])]) = .accept := by decide +kernel

end Verif.Args
