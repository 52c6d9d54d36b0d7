import Verif.Args.HelpAsked
/-!
# C106, C107: the help options, cases that meet the hypotheses, and findings
-/

namespace Verif.Args
open Verif JsonDrv Schema

variable {w : World}

/-! ## The help options -/

/-- A new option is entered if its path and its long name are free and conflicts of short names are resolved. -/
structure Entered (r t : Reg) (path : VPath) (sh : Int32) (l : Bytes) (a : Action) (id : Int32) (o : Opt) : Prop where
  inv : Inv t
  resolve : t.resolve = r.resolve
  entry : find t.optionMap id = some o
  long : o.long = l
  action : o.cfg.action = a
  short : find r.shorts (toChar sh) = none → o.short = sh
  kept : ∀ k o', find r.optionMap k = some o' → find t.optionMap k = some o'
  longs : ∀ l', l' ≠ l → find t.longs l' = find r.longs l'
  paths : ∀ p, p ≠ PathM.pathString path → find t.paths p = find r.paths p

theorem addOption_enters {r : Reg} (hi : Inv r) (hr : r.resolve = true) {k : Bytes} {path : VPath} (hp : PathM.parsePath k = .ok path) {sh : Int32} (hc : sh ≤ 255)
    {l hpx : Bytes} {a : Action} (h1 : find r.paths (PathM.pathString path) = none) (hl : l ≠ []) (h2 : find r.longs l = none)
    (hub : (addOption r k sh l hpx a).2 ≠ .ub) :
    ∃ id o, (addOption r k sh l hpx a).2 = .ok id ∧ Entered r (addOption r k sh l hpx a).1 path sh l a id o := by
  obtain ⟨t, x, e, hres, h3, h4⟩ := addOption_cases r k sh l hpx a
  have hinv := addOption_inv hi hc e (by rw [e] at hub; exact hub)
  rw [e] at hub ⊢
  cases x with
  | ub => exact absurd rfl hub
  | throw x =>
    obtain ⟨_, _, h5⟩ := h3 x rfl
    rcases h5 path hp with (h | ⟨h, _⟩ | ⟨_, h⟩) | ⟨h, _⟩
    · rw [h1] at h; cases h
    · rw [hr] at h; cases h
    · rw [h2] at h; cases h
    · exact absurd h hl
  | ok id =>
    obtain ⟨t0, path', o, sh', hp', hf, hsh, ho, rfl⟩ := h4 id rfl
    rw [hp] at hp'; cases hp'
    obtain ⟨e1, e2, e3, e4, _, _⟩ := newOpt_fields ho
    have hu := hf.unused hi (short_le hc (hsh.imp_right And.left))
    have ht : (enterOption t0 o).optionMap = insert ltInt r.optionMap id o := by simp only [enterOption, hf.same.2.2.1, e1]
    refine ⟨id, o, rfl, hinv, hres, ?_, e4, (newOpt_cfg ho).1, fun hs => ?_, fun k o' hk => ?_, fun l' hne => ?_, fun p hne => ?_⟩
    · rw [ht, find_insert _ _ hu, if_pos rfl]
    · rw [e3]
      rcases hsh with h | ⟨_, _, _, h⟩
      · exact h
      · rw [hs] at h; cases h
    · rw [ht, find_insert _ _ hu, if_neg]
      · exact hk
      · rintro rfl; rw [hu] at hk; cases hk
    · show find (if o.long ≠ [] then insert keyLt t0.longs o.long o.id else t0.longs) l' = _
      rw [e4, if_pos hl, hf.same.2.2.2.1, find_insert _ _ h2, if_neg (Ne.symm hne)]
    · show find (insert keyLt t0.paths (PathM.pathString o.path) o.id) p = _
      rw [e2, hf.same.2.2.2.2.2, find_insert _ _ h1, if_neg (Ne.symm hne)]

theorem addOption_kept {r : Reg} (hi : Inv r) {k : Bytes} {sh : Int32} (hc : sh ≤ 255) {l hp : Bytes} {a : Action} (hub : (addOption r k sh l hp a).2 ≠ .ub)
    {i : Int32} {o : Opt} (h : find r.optionMap i = some o) : find (addOption r k sh l hp a).1.optionMap i = some o := by
  obtain ⟨t, x, e, hres, h3, h4⟩ := addOption_cases r k sh l hp a
  rw [e] at hub ⊢
  cases x with
  | ub => exact absurd rfl hub
  | throw x => show find t.optionMap i = _; rw [(h3 x rfl).1.2.2.1]; exact h
  | ok id =>
    obtain ⟨t0, path', o', sh', hp', hf, hsh, ho, rfl⟩ := h4 id rfl
    obtain ⟨e1, _⟩ := newOpt_fields ho
    have hu := hf.unused hi (short_le hc (hsh.imp_right And.left))
    show find (insert ltInt t0.optionMap o'.id o') i = _
    rw [e1, hf.same.2.2.1, find_insert _ _ hu, if_neg]
    · exact h
    · rintro rfl; rw [hu] at h; cases h

/-- The path of the help option, as it is entered: "/default-help-option". -/
def helpKey : Bytes := 47 :: helpPath
/-- "/default-adv-help-option" -/
def advKey : Bytes := 47 :: advPath

/-- **C107**: `Parse` knows --help, unless the program has an option of this name or the path is taken, and -h, unless the program
has an option of this name; if there is something advanced, it knows --adv-help. -/
theorem help_is_known {P : Parser} (h : Built w P) (hadd : P.st.addHelp = true) (h1 : find P.st.reg.longs helpLong = none)
    (h2 : find P.st.reg.paths helpKey = none) {s0 : St} (h0 : addHelpOptions P.st = (s0, .ok ())) :
    (∃ i o, s0.entry i = some o ∧ o.cfg.action = .help ∧ o.long = helpLong ∧ (find P.st.reg.shorts 104 = none → o.short = 104)) ∧
    (P.st.haveAdvanced = true → find P.st.reg.longs advLong = none → find P.st.reg.paths advKey = none →
      ∃ i o, s0.entry i = some o ∧ o.cfg.action = .advHelp ∧ o.long = advLong) := by
  have hi : Inv { P.st.reg with resolve := true } := SameEntries.inv (s := P.st.reg) ⟨rfl, rfl, rfl, rfl, rfl, rfl⟩ h.sound.reg (Int.le_refl _)
  unfold addHelpOptions at h0
  rw [if_pos hadd] at h0
  dsimp only at h0
  have hub : (addOption { P.st.reg with resolve := true } helpPath 104 helpLong helpSays .help).2 ≠ .ub := by
    intro e; rw [e] at h0; cases h0
  obtain ⟨id, o, he, hE⟩ := addOption_enters hi rfl (k := helpPath) (path := [.key helpPath]) (by rfl) (sh := 104) (by decide) (l := helpLong) (hpx := helpSays)
    (a := .help) (by exact h2) (by decide) h1 hub
  rw [he] at h0
  dsimp only at h0
  generalize (addOption { P.st.reg with resolve := true } helpPath 104 helpLong helpSays .help).1 = t at h0 hE
  split at h0
  · have hub2 : (addOption t advPath 0 advLong advSays .advHelp).2 ≠ .ub := by
      intro e; rw [e] at h0; cases h0
    have hs0 : s0 = { P.st with reg := { (addOption t advPath 0 advLong advSays .advHelp).1 with resolve := P.st.reg.resolve } } := by
      revert h0
      cases hc : (addOption t advPath 0 advLong advSays .advHelp).2 with
      | ub => exact absurd hc hub2
      | ok _ => intro h0; cases h0; rfl
      | throw _ => intro h0; cases h0; rfl
    have hkept : ∀ k o', find t.optionMap k = some o' → s0.entry k = some o' := by
      intro k o' hk
      rw [hs0]
      show find (addOption t advPath 0 advLong advSays .advHelp).1.optionMap k = some o'
      have hn := addOption_kept hE.inv (k := advPath) (sh := 0) (by decide) (l := advLong) (hp := advSays) (a := .advHelp) hub2 hk
      exact hn
    refine ⟨⟨id, o, hkept id o hE.entry, hE.action, hE.long, hE.short⟩, fun _ h3 h4 => ?_⟩
    obtain ⟨id', o', he', hE'⟩ := addOption_enters hE.inv hE.resolve (k := advPath) (path := [.key advPath]) (by rfl) (sh := 0) (by decide) (l := advLong)
      (hpx := advSays) (a := .advHelp) (by rw [hE.paths _ (by decide)]; exact h4) (by decide) (by rw [hE.longs _ (by decide)]; exact h3) hub2
    refine ⟨id', o', ?_, hE'.action, hE'.long⟩
    rw [hs0]; exact hE'.entry
  · rename_i hadv
    cases h0
    exact ⟨⟨id, o, hE.entry, hE.action, hE.long, hE.short⟩, fun h => absurd h hadv⟩

/-! ## Cases that meet the hypotheses -/

/-- Options -a (or --ab: "x" or "3", or from variable F, by default true), -b (advanced), -c (in the groups F and G), an argument f of one to three words; group G has a title and is advanced. -/
def helpCalls : List PCall := [.addOption [97] 97 [97, 98] [72] .store, .set 97 (.setChoices [.str [120], .str [51]]), .set 97 (.env [70]), .set 97 (.default (.bool true)),
  .addOption [98] 98 [] [] .count, .set 98 (.advanced true), .addOption [99] 99 [] [] .storeTrue, .joinGroup 99 [71], .joinGroup 99 [70], .groupTitle [71] [84],
  .groupAdvanced [71] true, .addArgument [102] [], .set 257 (.maxArgs 3), .setTitle [80]]

def helpParser : Parser := (build exWorld (newParser [] true) helpCalls).getD (newParser [] true)

theorem helpParser_built : Built exWorld helpParser := ⟨[], true, helpCalls, by simp [helpCalls, PCall.proper] <;> decide, rfl⟩

/-- "P: [options] f [f [f]]", then the argument, -a, -b, and -c under "T". -/
example : helpText exWorld helpParser true = .ok ([80] ++ usageWord ++ [32, 102, 32, 91, 102, 32, 91, 102, 93, 93, 10, 10] ++ argumentsWord ++ [9, 32, 102, 10, 9, 9, 10] ++ optionsWord ++
    [9, 45, 97, 44, 32, 45, 45, 97, 98, 32, 120, 32, 124, 32, 51, 10, 9, 101, 110, 118, 58, 32, 36, 70, 61, 120, 32, 124, 32, 51, 10, 9, 9, 72] ++ defaultWord ++ [116, 114, 117, 101, 41, 10] ++
    [9, 45, 98, 10, 9, 9, 10] ++ [10, 84, 10] ++ [9, 45, 99, 10, 9, 9, 10]) := by kernel_refl

/-- Without -b and -c if the advanced ones are not wanted. -/
example : helpText exWorld helpParser false = .ok ([80] ++ usageWord ++ [32, 102, 32, 91, 102, 32, 91, 102, 93, 93, 10, 10] ++ argumentsWord ++ [9, 32, 102, 10, 9, 9, 10] ++ optionsWord ++
    [9, 45, 97, 44, 32, 45, 45, 97, 98, 32, 120, 32, 124, 32, 51, 10, 9, 101, 110, 118, 58, 32, 36, 70, 61, 120, 32, 124, 32, 51, 10, 9, 9, 72] ++ defaultWord ++ [116, 114, 117, 101, 41, 10]) := by kernel_refl

/-- The calls are ones the help can print. -/
example : ∀ c ∈ helpCalls, PCall.showable c := by
  simp [helpCalls, PCall.showable, IsPlain]

set_option maxRecDepth 4000 in
/-- The names of the help options are free; "-c --help -a 4 u v w x" prints the help although 4 is not a choice and there are too many words. -/
example : find helpParser.st.reg.longs helpLong = none ∧ find helpParser.st.reg.paths helpKey = none ∧ find helpParser.st.reg.longs advLong = none ∧
    ∃ s0 s1 s2, Opened exWorld 1 helpParser s0 s1 ∧ events exWorld 1 s1 [⟨99, none⟩] = some (s2, .ok true) ∧
      (s2.entry 104).map (fun o => o.cfg.action) = some .help ∧
      exits (parse exWorld 1 helpParser.st ([⟨99, none⟩] ++ ⟨104, none⟩ :: [⟨97, some ⟨[52], false⟩⟩])
        [⟨[117], false⟩, ⟨[118], false⟩, ⟨[119], false⟩, ⟨[120], false⟩]) = some 0 ∧
      exits (parse exWorld 1 helpParser.st ([⟨99, none⟩] ++ [⟨97, some ⟨[52], false⟩⟩])
        [⟨[117], false⟩, ⟨[118], false⟩, ⟨[119], false⟩, ⟨[120], false⟩]) = some 1 :=
  ⟨by rfl, by rfl, by rfl, _, _, _, ⟨rfl, rfl⟩, rfl, by rfl, by kernel_refl, by kernel_refl⟩

/-! ## Findings -/

/-- How it ends with an exception. -/
def escapesWith : Option End → Option Err
  | some (.escapes e) => some e
  | _ => none

/-- "Asking for the help prints it and exits" is false: with a list as a choice, `--help` ends in an exception that leaves `Parse`. -/
theorem help_exits_false : ∃ P, Built exWorld P ∧ escapesWith (parse exWorld 1 P.st [⟨104, none⟩] []) = some .unableToConvert :=
  ⟨(build exWorld (newParser [] true) [.addOption [97] 97 [] [] .store, .set 97 (.addChoice (.list []))]).getD (newParser [] true),
    ⟨[], true, [.addOption [97] 97 [] [] .store, .set 97 (.addChoice (.list []))], by simp [PCall.proper] <;> decide, rfl⟩, by rfl⟩

/-- "The options of an advanced group are shown only in the advanced help" is false: a group without title and description hides nothing. -/
theorem advanced_group_hides_false : ∃ P os o g, Built exWorld P ∧ P.st.reg.options.map P.st.entry = os.map some ∧ find P.st.groups [71] = some g ∧ g.advanced = true ∧
    o.cfg.groups = [[71]] ∧ o ∈ printedEntries (layout P false [] os) :=
  ⟨(build exWorld (newParser [] true) [.addOption [97] 97 [] [] .store, .joinGroup 97 [71], .groupAdvanced [71] true]).getD (newParser [] true), _, _, _,
    ⟨[], true, [.addOption [97] 97 [] [] .store, .joinGroup 97 [71], .groupAdvanced [71] true], by simp [PCall.proper] <;> decide, rfl⟩,
    (rfl : _ = [_].map some), rfl, rfl, rfl, List.mem_singleton.2 rfl⟩

/-- "If there is something advanced, there is --adv-help" is false: an option of the program with the long name "help" takes both away. -/
theorem adv_help_known_false : ∃ P s0, Built exWorld P ∧ P.st.addHelp = true ∧ P.st.haveAdvanced = true ∧ addHelpOptions P.st = (s0, .ok ()) ∧
    find P.st.reg.longs advLong = none ∧ ∀ x ∈ s0.reg.optionMap, x.2.cfg.action ≠ .advHelp :=
  ⟨(build exWorld (newParser [] true) [.addOption [97] 97 helpLong [] .storeTrue, .set 97 (.advanced true)]).getD (newParser [] true), _,
    ⟨[], true, [.addOption [97] 97 helpLong [] .storeTrue, .set 97 (.advanced true)], by simp [PCall.proper] <;> decide, rfl⟩, rfl, rfl, rfl, by rfl, by decide⟩

/-- "The usage says how many words an argument takes" is false if `maxArgs` is less than `minArgs`: the usage "f f [f ...]" allows two words, which
`Parse` refuses. -/
theorem usage_allows_false : ∃ (P : Parser) (o : Opt) (f : UsageForm), Built exWorld P ∧ P.st.reg.arguments.map P.st.entry = [some o] ∧
    setting exWorld o.cfg kMinArgs = .ok 2 ∧ setting exWorld o.cfg kMaxArgs = .ok 1 ∧ f.tokens = Args.usage 2 1 ∧ f.allows 2 ∧
    ∀ x y, exits (parse exWorld 1 P.st [] [x, y]) = some 1 :=
  ⟨(build exWorld (newParser [] true) [.addArgument [102] [], .set 257 (.minArgs 2)]).getD (newParser [] true), _, UsageForm.words 2 (.maybe (.more .done) .done),
    ⟨[], true, [.addArgument [102] [], .set 257 (.minArgs 2)], by simp [PCall.proper] <;> decide, rfl⟩, rfl, by rfl, by rfl, by rfl,
    ⟨1, rfl, 0, rfl, .inl rfl⟩, fun x y => by rfl⟩

end Verif.Args
