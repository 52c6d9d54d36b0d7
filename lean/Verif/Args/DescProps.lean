import Verif.Args.DescUnion
import Verif.Args.ParseExamples
/-!
# C103: descriptions of parsers
-/

namespace Verif.Args
open Verif JsonDrv Schema

theorem describeOptions_safe {s : St} : ∀ (ids : List Int32) (m : List (Bytes × Val)), (∀ i ∈ ids, ∃ o, s.entry i = some o) →
    (∃ m', describeOptions s ids m = .ok m') ∨ (describeOptions s ids m = .throw .runtime ∧ ∃ i o, s.entry i = some o ∧ o.cfg.action = .unknown)
  | [], m, _ => .inl ⟨m, rfl⟩
  | i :: ids, m, h => by
    obtain ⟨o, ho⟩ := h i List.mem_cons_self
    unfold describeOptions
    rw [ho]
    simp only []
    unfold describeOpt
    cases e : o.cfg.action with
    | unknown => exact .inr ⟨rfl, i, o, ho, e⟩
    | _ => exact describeOptions_safe ids _ fun j hj => h j (List.mem_cons_of_mem _ hj)

theorem describeArguments_safe {s : St} : ∀ (ids : List Int32), (∀ i ∈ ids, ∃ o, s.entry i = some o) →
    (∃ m', describeArguments s ids = .ok m') ∨ (describeArguments s ids = .throw .runtime ∧ ∃ i o, s.entry i = some o ∧ o.cfg.action = .unknown)
  | [], _ => .inl ⟨[], rfl⟩
  | i :: ids, h => by
    obtain ⟨o, ho⟩ := h i List.mem_cons_self
    have hd : (∃ d, describeOpt o = .ok d) ∨ (describeOpt o = .throw .runtime ∧ o.cfg.action = .unknown) := by
      unfold describeOpt
      cases e : o.cfg.action with
      | unknown => exact .inr ⟨rfl, rfl⟩
      | _ => exact .inl ⟨_, rfl⟩
    unfold describeArguments
    rw [ho]
    simp only []
    rcases hd with ⟨d, hd⟩ | ⟨hd, hu⟩
    · rw [hd]
      rcases describeArguments_safe ids fun j hj => h j (List.mem_cons_of_mem _ hj) with ⟨m', e⟩ | ⟨e, h2⟩
      · rw [e]; exact .inl ⟨_, rfl⟩
      · rw [e]; exact .inr ⟨rfl, h2⟩
    · rw [hd]; exact .inr ⟨rfl, i, o, ho, hu⟩

/-- **C103**, part: `GetDescription` of any parser returns a description, unless some option has the invalid action, for which
it throws; the behaviour is never undefined. -/
theorem description_total {w : World} {P : Parser} (hP : Built w P) {ord : List Int32 → List Int32} (ho : ∀ l, (ord l).Perm l) :
    (∃ d, getDescription ord P = .ok d) ∨
      (getDescription ord P = .throw .runtime ∧ ∃ i o, P.st.entry i = some o ∧ o.cfg.action = .unknown) := by
  have hs := hP.sound
  obtain ⟨gs, h3⟩ := describeGroups_ok (s := P.st) (ord := ord) P.st.groups fun n g hg => by
    have hg' : find P.st.groups n = some g := by rw [find_get]; exact AMap.get_of_mem hs.names hg
    have := keypaths_ok (map_both (s := P.st) (ids := ord g.members) fun i hi => (hs.members n g hg').2 i ((ho _).mem_iff.1 hi))
    obtain ⟨D, h, _⟩ := describeGroup_ok this
    exact ⟨_, h⟩
  unfold getDescription
  rcases describeOptions_safe (s := P.st) P.st.reg.options [] fun i hi => hs.reg.known i (List.mem_append.2 (.inl hi)) with ⟨m, h1⟩ | ⟨h1, hu⟩
  · rw [h1]
    rcases describeArguments_safe (s := P.st) P.st.reg.arguments fun i hi => hs.reg.known i (List.mem_append.2 (.inr hi)) with ⟨m', h2⟩ | ⟨h2, hu⟩
    · rw [h2, h3]; exact .inl ⟨_, rfl⟩
    · rw [h2]; exact .inr ⟨rfl, hu⟩
  · rw [h1]; exact .inr ⟨rfl, hu⟩

/-- **C103**: merging the description of the parser `P` into the parser `Q` succeeds and adds exactly what `P` has: afterwards the
description of `Q` is the union of both.  Partial: for parsers `P` of which nothing is lost in the description (`Describable`) and
parsers `Q` that have no key path or name of `P`. -/
theorem merge_adds_partial {w : World} {P Q : Parser} (hP : Built w P) (hQ : Built w Q) {ordP ordQ ord : List Int32 → List Int32}
    (oP : ∀ l, (ordP l).Perm l) (oQ : ∀ l, (ordQ l).Perm l) (o' : ∀ l, (ord l).Perm l) {dp dq : Val}
    (hdp : getDescription ordP P = .ok dp) (hdq : getDescription ordQ Q = .ok dq) (hL : Describable P.st)
    (hD : ∀ i j a b, P.st.entry i = some a → Q.st.entry j = some b → Distinct a b)
    (hc : Q.st.reg.count.toInt + (P.st.reg.options ++ P.st.reg.arguments).length ≤ Int32.maxValue.toInt) :
    ∃ Q' r, (PCall.merge dp).run w Q = (Q', .ok ()) ∧ getDescription ord Q' = .ok r ∧ Union dq dp r := by
  obtain ⟨s', r, h1, h2, h3⟩ := merge_union hP.sound hQ.sound oP oQ o' hdp hdq hL hD hc
  refine ⟨{ Q with st := s' }, r, ?_, h2, h3⟩
  show ({ Q with st := (mergeDescription w Q.st dp).1 }, (mergeDescription w Q.st dp).2) = _
  rw [h1]

/-- **C103**: a new parser that is given the description of `P` has the same options, arguments and groups; only the members
of a group may be listed in another order. -/
theorem merge_rebuilds_partial {w : World} {P : Parser} (hP : Built w P) {ordP ord : List Int32 → List Int32}
    (oP : ∀ l, (ordP l).Perm l) (o' : ∀ l, (ord l).Perm l) {dp : Val} (hdp : getDescription ordP P = .ok dp) (hL : Describable P.st)
    (hc : (P.st.reg.options ++ P.st.reg.arguments).length ≤ 2147483391) (title : Bytes) (help : Bool) :
    ∃ Q' r, (PCall.merge dp).run w (newParser title help) = (Q', .ok ()) ∧ getDescription ord Q' = .ok r ∧
      (∀ k, AMap.get (mapIn r kOptions) k = AMap.get (mapIn dp kOptions) k) ∧ listIn r kArguments = listIn dp kArguments ∧
      ∀ n, (AMap.get (mapIn r kGroups) n).isSome = (AMap.get (mapIn dp kGroups) n).isSome ∧
        (∀ k, k ≠ kMembers → says (AMap.get (mapIn r kGroups) n) k = says (AMap.get (mapIn dp kGroups) n) k) ∧
        (membersOf (AMap.get (mapIn r kGroups) n)).Perm (membersOf (AMap.get (mapIn dp kGroups) n)) := by
  obtain ⟨dq, hdq⟩ : ∃ dq, getDescription id (newParser title help) = .ok dq := ⟨_, rfl⟩
  obtain ⟨os, as_, gs, q1, q2, q3, q4, q5, q6, _⟩ := getDescription_parts hdq
  cases q1; cases q2; cases q3
  obtain ⟨Q', r, h1, h2, h3⟩ := merge_adds_partial hP (Q := newParser title help) ⟨title, help, [], nofun, rfl⟩ oP (fun l => .refl l) o' hdp hdq hL
    (fun i j a b _ hb => by cases hb) (by
      have h0 : (newParser title help).st.reg.count.toInt = 256 := rfl
      have hm : Int32.maxValue.toInt = 2147483647 := by decide
      rw [h0, hm]
      omega)
  refine ⟨Q', r, h1, h2, fun k => ?_, ?_, fun n => ?_⟩
  · rw [h3.options, q4]; exact Option.or_none
  · rw [h3.arguments, q5]; rfl
  · have := h3.groups n
    rw [q6] at this
    refine ⟨?_, fun k hk => ?_, ?_⟩
    · rw [this.there]; rfl
    · rw [this.keys k hk]; exact Option.or_none
    · exact this.members

/-! ## A case that meets the hypotheses -/

/-- A program: -a with choices, --list appending at l/x, a positional argument f, and an exclusive group of both options. -/
def someCalls : List PCall := [.addOption [97] 97 [] [104] .store, .set 97 (.type .str), .set 97 (.addChoice (.str [51])),
  .addOption [108, 47, 120] 0 [108, 105, 115, 116] [] .append, .set 257 (.maxArgs 3), .addArgument [102] [104], .set 258 (.minArgs 0), .joinGroup 97 [71], .groupTitle [71] [84],
  .groupExclusive [71] true, .groupAdd [71] [108, 47, 120]]

/-- Another program: -q in a group of the same name. -/
def otherCalls : List PCall := [.addOption [113] 113 [] [] .storeTrue, .set 113 (.help [104]), .joinGroup 113 [71], .groupTitle [71] [85], .groupDescription [71] [86]]

def exParser : Parser := (build exWorld (newParser [] true) someCalls).getD (newParser [] true)
def exParser' : Parser := (build exWorld (newParser [80] true) otherCalls).getD (newParser [] true)

theorem exParser_built : Built exWorld exParser := ⟨[], true, someCalls, by simp [someCalls, PCall.proper] <;> decide, rfl⟩
theorem exParser'_built : Built exWorld exParser' := ⟨[80], true, otherCalls, by simp [otherCalls, PCall.proper] <;> decide, rfl⟩

theorem exParser_describable : Describable exParser.st := by
  have k1 : ∀ x ∈ exParser.st.reg.optionMap, x.2.path.getLast? ≠ some (.key []) ∧ x.2.short ≤ 127 ∧ (x.2.cfg.ty = .str ∨ x.2.cfg.ty = .null) := by decide
  have k2 : ∀ x ∈ exParser.st.reg.optionMap, x.1 ∈ exParser.st.reg.options → (x.2.long ≠ [] ∨ x.2.short > 0) := by decide
  have k3 : ∀ x ∈ exParser.st.groups, ∀ i ∈ x.2.members, i ∈ exParser.st.reg.options := by decide
  refine ⟨fun i o ho => ?_, fun i hi o ho => k2 _ (find_mem ho) hi, fun n g hg i hi => k3 _ (find_mem hg) i hi⟩
  obtain ⟨h1, h2, h3⟩ := k1 _ (find_mem ho)
  refine ⟨h1, h2, ?_⟩
  rcases h3 with h | h <;> rw [h] <;> trivial

theorem exParser_distinct : ∀ i j a b, exParser.st.entry i = some a → exParser'.st.entry j = some b → Distinct a b := by
  have k : ∀ x ∈ exParser.st.reg.optionMap, ∀ y ∈ exParser'.st.reg.optionMap,
      PathM.pathString x.2.path ≠ PathM.pathString y.2.path ∧ (x.2.long ≠ [] → x.2.long ≠ y.2.long) ∧
      (x.2.short > 0 → y.2.short > 0 → toChar x.2.short ≠ toChar y.2.short) := by decide
  exact fun i j a b ha hb => k _ (find_mem ha) _ (find_mem hb)

/-- The hypotheses of the theorems are met. -/
example : ∃ dp dq, getDescription List.reverse exParser = .ok dp ∧ getDescription id exParser' = .ok dq ∧ Describable exParser.st ∧
    (∃ Q' r, (PCall.merge dp).run exWorld exParser' = (Q', .ok ()) ∧ getDescription id Q' = .ok r ∧ Union dq dp r) ∧
    listIn dp kArguments ≠ [] ∧ mapIn dp kOptions ≠ [] ∧ mapIn dp kGroups ≠ [] := by
  refine ⟨_, _, rfl, rfl, exParser_describable, ?_, ?_, ?_, ?_⟩
  · exact merge_adds_partial (ord := id) exParser_built exParser'_built (fun l => List.reverse_perm l) (fun l => .refl l) (fun l => .refl l) rfl rfl
      exParser_describable exParser_distinct (by decide)
  · intro h; cases h
  · intro h; cases h
  · intro h; cases h

/-- The members and the title of the group of both. -/
example : ∃ dp Q' r, getDescription id exParser = .ok dp ∧ (PCall.merge dp).run exWorld exParser' = (Q', .ok ()) ∧ getDescription id Q' = .ok r ∧
    says (AMap.get (mapIn r kGroups) [71]) kTitle = some (.str [84]) ∧ says (AMap.get (mapIn r kGroups) [71]) kDescription = some (.str [86]) ∧
    says (AMap.get (mapIn r kGroups) [71]) kExclusive = some (.bool true) ∧
    membersOf (AMap.get (mapIn r kGroups) [71]) = [.str [47, 113], .str [47, 97], .str [47, 108, 47, 120]] ∧ getKey? r kTitle = some (.str [80]) :=
  ⟨_, _, _, rfl, rfl, rfl, rfl, rfl, rfl, rfl, rfl⟩

/-! ## Findings: what a description loses -/

/-- What merging the description of the parser built by `cs` into a new one gives. -/
def rebuilt (cs : List PCall) : Option (Val × Out Unit × Out Val) :=
  (build exWorld (newParser [] true) cs).bind fun P =>
    match getDescription id P with
    | .ok d => some (d, ((PCall.merge d).run exWorld (newParser [] true)).2, getDescription id ((PCall.merge d).run exWorld (newParser [] true)).1)
    | _ => none

/-- A key of the option at a key path. -/
def optionSays (d : Out Val) (path k : Bytes) : Option Val :=
  match d with
  | .ok d => says (AMap.get (mapIn d kOptions) path) k
  | _ => none

/-- **C103** is false if a group has a positional argument: groups are merged before the arguments, so `At` throws. -/
theorem argument_in_group_false : ∃ cs P d, (∀ c ∈ cs, PCall.proper c) ∧ build exWorld (newParser [] true) cs = some P ∧
    getDescription id P = .ok d ∧ ((PCall.merge d).run exWorld (newParser [] true)).2 = .throw .runtime :=
  ⟨[.addArgument [102] [], .joinGroup 257 [71]], _, _, by simp [PCall.proper], rfl, rfl, rfl⟩

/-- **C103** is false for short options beyond ASCII: `char` is signed, so the name is gone. -/
theorem short_lost_false : ∃ cs d r, (∀ c ∈ cs, PCall.proper c) ∧ rebuilt cs = some (d, .ok (), .ok r) ∧
    optionSays (.ok d) [47, 97] kShortOption = some (.str [200]) ∧ optionSays (.ok r) [47, 97] kShortOption = none :=
  ⟨[.addOption [97] 200 [97, 97] [] .store], _, _, by simp [PCall.proper] <;> decide, rfl, rfl, rfl⟩

/-- **C103** is false for an option whose only name is a negative number: it was accepted, but its description is not. -/
theorem negative_short_false : ∃ cs d r, (∀ c ∈ cs, PCall.proper c) ∧ rebuilt cs = some (d, .throw .runtime, .ok r) :=
  ⟨[.addOption [97] (-5) [] [] .store], _, _, by simp [PCall.proper] <;> decide, rfl⟩

/-- **C103** is false for options of type blob: the description says "null", which means any type. -/
theorem blob_lost_false : ∃ cs d r, (∀ c ∈ cs, PCall.proper c) ∧ rebuilt cs = some (d, .ok (), .ok r) ∧
    optionSays (.ok d) [47, 97] kType = some (.str wNull) ∧ optionSays (.ok r) [47, 97] kType = some .null :=
  ⟨[.addOption [97] 97 [] [] .store, .set 97 (.type .blob)], _, _, by simp [PCall.proper] <;> decide, rfl, rfl, rfl⟩

/-- **C103** is false for a key path that ends in an empty key: "a//" is described as "/a/", which is the path "/a". -/
theorem empty_last_key_false : ∃ cs d r, (∀ c ∈ cs, PCall.proper c) ∧ rebuilt cs = some (d, .ok (), .ok r) ∧
    (AMap.get (mapIn d kOptions) [47, 97, 47]).isSome ∧ AMap.get (mapIn r kOptions) [47, 97, 47] = none ∧ (AMap.get (mapIn r kOptions) [47, 97]).isSome :=
  ⟨[.addOption [97, 47, 47] 97 [] [] .store], _, _, by simp [PCall.proper] <;> decide, rfl, rfl, rfl, rfl⟩

/-- The type of an entry. -/
def typeOf (P : Parser) (id : Int32) : Option Ty := (P.st.entry id).map (·.cfg.ty)

/-- Unsigned options become signed ones: the description does not tell them apart. -/
theorem unsigned_lost_false : ∃ cs P d, (∀ c ∈ cs, PCall.proper c) ∧ build exWorld (newParser [] true) cs = some P ∧ getDescription id P = .ok d ∧
    typeOf P 97 = some .uint ∧ typeOf ((PCall.merge d).run exWorld (newParser [] true)).1 97 = some .int :=
  ⟨[.addOption [97] 97 [] [] .store, .set 97 (.type .uint)], _, _, by simp [PCall.proper] <;> decide, rfl, rfl, rfl, rfl⟩

/-- A description with an empty key path: the behaviour of `Merge` is undefined. -/
theorem empty_keypath_false : ∃ d, d.WF ∧ ((PCall.merge d).run exWorld (newParser [] true)).2 = .ub :=
  ⟨.map [(kOptions, .map [([], .map [(kLongOption, .str [97])])])],
    by simp [Val.WF, WFMap, AMap.Sorted, AMap.above], rfl⟩

/-- A description with a misspelt action is accepted; it is `GetDescription` that throws afterwards. -/
theorem bad_action_false : ∃ d, d.WF ∧ ((PCall.merge d).run exWorld (newParser [] true)).2 = .ok () ∧
    getDescription id ((PCall.merge d).run exWorld (newParser [] true)).1 = .throw .runtime :=
  ⟨.map [(kOptions, .map [([97], .map [(kAction, .str [120]), (kLongOption, .str [97])])])],
    by simp [Val.WF, WFMap, AMap.Sorted, AMap.above]; decide, rfl, rfl⟩

/-- `Required(false)` makes an option required (src/ArgParse.cc 557). -/
theorem not_required_false : ∃ P d, build exWorld (newParser [] true) [.addOption [97] 97 [] [] .store, .set 97 (.required false)] = some P ∧
    getDescription id P = .ok d ∧ optionSays (.ok d) [47, 97] kRequired = some (.bool true) := ⟨_, _, rfl, rfl, rfl⟩

end Verif.Args
