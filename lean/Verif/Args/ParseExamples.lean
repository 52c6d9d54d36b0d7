import Verif.Args.ParseOrder
/-!
# C56 - C60: cases that meet the hypotheses, and findings
-/

namespace Verif.Args
open Verif JsonDrv Schema

/-- A world: variable E is "7"; every file says {"c": "x", "n": "z"}. -/
def exWorld : World where
  p := 64
  fo := ⟨fun _ => 0, fun _ => []⟩
  strtodEnd := fun _ => 0
  regex := fun _ => none
  load := fun _ _ => .ok (.map [([99], .str [120]), ([110], .str [122])])
  getenv := fun n => if n = [69] then some ⟨[55], false⟩ else none
  jsonFlt := fun _ _ => []
  strUInt := fun _ => .throw .runtime
  fl := fun _ v _ => v

/-- The value returned. -/
def returns : Option End → Option Val
  | some (.returned _ v) => some v
  | _ => none

/-- The exit code. -/
def exits : Option End → Option Nat
  | some (.exit n) => some n
  | _ => none

/-- Setting a key of an entry's table. -/
def withKey (k : Bytes) (x : Val) (c : Config) : Config := { c with opt := match c.opt with
  | .map m => .map (AMap.set m k x)
  | v => v }

/-- Options -a (required, "3" or "7", or from variable E), -v (counted), -q (flag), -l (appending), and two positional
arguments f and g. -/
def exSetup : List Call := [.addOption [97] 97 [] [] .store, .addOption [118] 118 [] [] .count, .addOption [113] 113 [] [] .storeTrue,
  .addOption [108] 108 [] [] .append, .addArgument [102] [] .store, .addArgument [103] [] .store,
  .configure 97 (fun c => { withKey kEnum (.list [.str [51], .str [55]]) (withKey kEnv (.str [69]) c) with required := true, ty := .str })]

def exSt : St := ⟨(calls .init exSetup).getD .init, [], true, false, false, false, false⟩

theorem exSt_reached : Reached exSetup exSt.reg := ⟨by simp [exSetup, Call.charShort], rfl⟩

theorem exSt_apart : PathsApart exSt := by
  have key : ∀ x ∈ exSt.reg.optionMap, ∀ y ∈ exSt.reg.optionMap, x.1 ≠ y.1 → ¬ x.2.path <+: y.2.path := by decide
  intro a b o o' ha hb hne _ _
  exact ⟨key _ (find_mem ha) _ (find_mem hb) hne, key _ (find_mem hb) _ (find_mem ha) (Ne.symm hne)⟩

theorem exSt_noConfig : NoConfig exSt := by
  have key : ∀ x ∈ exSt.reg.optionMap, x.2.cfg.action ≠ .config ∧ x.2.cfg.action ≠ .configJson ∧
      x.2.cfg.action ≠ .configYaml ∧ x.2.cfg.action ≠ .configPlist := by decide
  intro k o ho
  exact key _ (find_mem ho)

/-- The hypotheses are met: "-v -a 3 -v -l x -l 4 fff" with variable E returns the values in order. -/
example : returns (parse exWorld 1 exSt [⟨118, none⟩, ⟨97, some ⟨[51], false⟩⟩, ⟨118, none⟩, ⟨108, some ⟨[120], false⟩⟩,
      ⟨108, some ⟨[52], false⟩⟩] [⟨[102, 102, 102], false⟩]) =
    some (.map [([97], .str [51]), ([102], .str [102, 102, 102]), ([108], .list [.str [120], .int 4]), ([118], .uint 2)]) := by rfl

/-- The environment is used if the command line does not say otherwise; a value that is not one of the choices is refused; so is
a third word. -/
example : returns (parse exWorld 1 exSt [] []) = some (.map [([97], .str [55]), ([118], .uint 0)]) ∧
    exits (parse exWorld 1 exSt [⟨97, some ⟨[49, 49], false⟩⟩] []) = some 1 ∧
    exits (parse exWorld 1 exSt [] [⟨[102], false⟩, ⟨[103], false⟩, ⟨[104], false⟩]) = some 1 := ⟨by rfl, by rfl, by rfl⟩

/-- A setting with a mutually exclusive group of these members. -/
def exGroup (cs : List Call) (members : List Int32) (exclusive required : Bool) : St :=
  ⟨(calls .init cs).getD .init, [([71], { members, required, exclusive })], true, false, false, false, false⟩

/-- An exclusive, required group of the flags -q and -r. -/
def exFlags : List Call := [.addOption [113] 113 [] [] .storeTrue, .addOption [114] 114 [] [] .storeTrue]

/-- Exactly one of them is accepted. -/
example : Reached exFlags (exGroup exFlags [113, 114] true true).reg ∧
    returns (parse exWorld 1 (exGroup exFlags [113, 114] true true) [⟨114, none⟩] []) = some (.map [([114], .bool true)]) ∧
    exits (parse exWorld 1 (exGroup exFlags [113, 114] true true) [] []) = some 1 ∧
    exits (parse exWorld 1 (exGroup exFlags [113, 114] true true) [⟨114, none⟩, ⟨113, none⟩] []) = some 1 :=
  ⟨⟨by simp [exFlags, Call.charShort], rfl⟩, by rfl, by rfl, by rfl⟩

/-- C56, finding: a group that is required but not exclusive is not required. -/
theorem required_group_ignored_false :
    returns (parse exWorld 1 (exGroup exFlags [113, 114] false true) [] []) = some (.map []) := by rfl

/-- An exclusive group of the counted -v and the flag -q. -/
def exCount : List Call := [.addOption [118] 118 [] [] .count, .addOption [113] 113 [] [] .storeTrue]

/-- C56, finding: an option that counts always has a value, so another member of its exclusive group can never be
used. -/
theorem count_in_group_false :
    exits (parse exWorld 1 (exGroup exCount [118, 113] true false) [⟨113, none⟩] []) = some 1 ∧
    returns (parse exWorld 1 (exGroup exCount [118, 113] true false) [] []) = some (.map [([118], .uint 0)]) := ⟨by rfl, by rfl⟩

/-- C57, finding: a default is not checked.  The only choice is "y" and the default "z". -/
def exDefault : List Call := [.addOption [97] 97 [] [] .store,
  .configure 97 (fun c => withKey kEnum (.list [.str [121]]) (withKey kDefault (.str [122]) c))]

def exPlain (cs : List Call) : St := ⟨(calls .init cs).getD .init, [], true, false, false, false, false⟩

theorem default_unchecked_false : returns (parse exWorld 1 (exPlain exDefault) [] []) = some (.map [([97], .str [122])]) := by rfl

/-- C58, finding: a word that reads as null, such as "~" or the empty word, does not override the default. -/
theorem null_word_default_false :
    returns (parse exWorld 1 (exPlain [.addOption [97] 97 [] [] .store, .configure 97 (withKey kDefault (.str [122]))]) [⟨97, some ⟨[126], false⟩⟩] []) = some (.map [([97], .str [122])]) := by rfl

/-- Option -c reads a file; the only choice for -n is "y". -/
def exConfig : List Call := [.addOption [102] 102 [] [] .config, .addOption [110] 110 [] [] .store,
  .configure 110 (withKey kEnum (.list [.str [121]])), .addOption [99] 99 [] [] .store]

theorem parse_events {w : World} {fuel : Nat} {s s0 s1 : St} (es : List Event) (rest : List Text) (h0 : addHelpOptions s = (s0, .ok ()))
    (h1 : forEach (initOne w fuel) s0 (s0.reg.optionMap.map (·.1)) = some (s1, .ok ())) :
    parse w fuel s es rest = afterEvents w fuel rest (events w fuel s1 es) := by
  unfold parse
  rw [h0]
  dsimp only
  rw [h1]

/-- The options after one. -/
def eventsRest (w : World) (fuel : Nat) (es : List Event) : Res → Option (St × Out Bool)
  | none => none
  | some (s', .ok _) => events w fuel s' es
  | some (s', .throw x) => some (s', .throw x)
  | some (s', .ub) => some (s', .ub)

theorem events_step {w : World} {fuel : Nat} {s : St} {o : Opt} {e : Event} {x : Val} {r : Option (St × Out Unit)} (es : List Event)
    (h63 : e.id ≠ 63) (ho : s.entry e.id = some o) (ha : parseArg w o.cfg e.arg = .ok x) (hh : handle w fuel s e.id x = r) :
    events w fuel s (e :: es) = eventsRest w fuel es r := by
  rw [events, if_neg (by rw [ho]; simpa using h63)]
  unfold handleOption
  rw [ho]
  dsimp only
  rw [ha]
  dsimp only
  rw [hh]
  rfl

/-- What the file of `exWorld` does. -/
theorem handle_file {n : Nat} {s : St} {id : Int32} {o : Opt} (ho : s.entry id = some o) (ha : o.cfg.action = .config) :
    handle exWorld (n + 1) s id (.str [120]) =
      andThen (tryHandle (handle exWorld n) s [.key [99]] (.str [120]) (fun s => some (s, .ok ()))) fun s =>
        andThen (tryHandle (handle exWorld n) s [.key [110]] (.str [122]) (fun s => some (s, .ok ()))) fun s => some (s, .ok ()) := by
  rw [handle, ho]
  dsimp only
  unfold handleOpt
  rw [ha]
  show merge (handle exWorld n) s [] (.map [([99], .str [120]), ([110], .str [122])]) = _
  rw [merge, mergeMap, merge]
  · simp only [mergeMap, List.nil_append]
    congr
  all_goals nofun

/-- The state of `exConfig` when the options are looked at. -/
def exConfigSt : St := (addHelpOptions (exPlain exConfig)).1

/-- C57, finding: a value in a configuration file outside the requirements is dropped without a word; on the command
line it is refused. -/
theorem config_value_dropped_false :
    returns (parse exWorld 2 (exPlain exConfig) [⟨102, some ⟨[120], false⟩⟩] []) = some (.map [([99], .str [120])]) ∧
    exits (parse exWorld 2 (exPlain exConfig) [⟨110, some ⟨[122], false⟩⟩] []) = some 1 := by
  constructor
  · rw [parse_events (s0 := exConfigSt) (s1 := exConfigSt) _ _ rfl rfl,
      events_step [] (by decide) rfl rfl (handle_file (n := 1) rfl rfl)]
    rfl
  · rfl

/-- The same with the option before or after the file: the later wins, as `later_words_win_partial` says for what
follows the file. -/
example : returns (parse exWorld 2 (exPlain exConfig) [⟨102, some ⟨[120], false⟩⟩, ⟨99, some ⟨[53], false⟩⟩] []) =
      some (.map [([99], .int 5)]) ∧
    returns (parse exWorld 2 (exPlain exConfig) [⟨99, some ⟨[53], false⟩⟩, ⟨102, some ⟨[120], false⟩⟩] []) =
      some (.map [([99], .str [120])]) := by
  constructor
  · rw [parse_events (s0 := exConfigSt) (s1 := exConfigSt) _ _ rfl rfl,
      events_step _ (by decide) rfl rfl (handle_file (n := 1) rfl rfl)]
    rfl
  · rw [parse_events (s0 := exConfigSt) (s1 := exConfigSt) _ _ rfl rfl,
      events_step _ (by decide) rfl rfl (r := some (setResult exConfigSt 99 (.int 5), .ok ())) rfl]
    dsimp only [eventsRest]
    rw [events_step _ (by decide) rfl rfl (handle_file (n := 1) rfl rfl)]
    rfl

/-- The option stored at "c" reads a file, which says "c" as well. -/
def exLoop : List Call := [.addOption [99] 99 [] [] .config]

/-- C58, finding: a configuration file that names itself is read again and again: there is no number of nested files
after which the call ends. -/
theorem config_loop_false (fuel : Nat) : (parse exWorld fuel (exPlain exLoop) [⟨99, some ⟨[120], false⟩⟩] []).isNone := by
  have key : ∀ fuel (s : St), s.entry 99 = (exPlain exLoop).entry 99 → at? s [.key [99]] = some 99 →
      handle exWorld fuel s 99 (.str [120]) = none := by
    intro fuel
    induction fuel with
    | zero => intros; rfl
    | succ n ih =>
      intro s h1 h2
      rw [handle, h1]
      show mergeMap (handle exWorld n) s [] [([99], .str [120]), ([110], .str [122])] = none
      rw [mergeMap, merge]
      · show andThen (tryHandle (handle exWorld n) s [.key [99]] (.str [120]) _) _ = none
        unfold tryHandle
        rw [h2]
        dsimp only
        rw [ih s h1 h2]
        rfl
      all_goals nofun
  rw [parse_events (s0 := (addHelpOptions (exPlain exLoop)).1) (s1 := (addHelpOptions (exPlain exLoop)).1) _ _ rfl rfl,
    events_step _ (by decide) rfl rfl (key fuel (addHelpOptions (exPlain exLoop)).1 rfl rfl)]
  rfl

/-- C58, finding: an environment variable for an option without word, such as a flag, makes every call fail while the
variable is set. -/
theorem env_flag_false : exits (parse exWorld 1 (exPlain [.addOption [113] 113 [] [] .storeTrue, .configure 113 (withKey kEnv (.str [69]))]) [] []) =
    some 1 := by rfl

/-- C60, finding: two options whose result paths lie one inside the other are both registered; given together, an
exception leaves `Parse` (an error in the words would have ended the program with a message). -/
theorem nested_paths_escape_false :
    (match parse exWorld 1 (exPlain [.addOption [97] 97 [] [] .store, .addOption [97, 47, 98] 98 [] [] .store])
      [⟨97, some ⟨[120], false⟩⟩, ⟨98, some ⟨[121], false⟩⟩] [] with
    | some (.escapes _) => true
    | _ => false) = true := by rfl

/-- The state after a call. -/
def after : Option End → Option St
  | some (.returned s _) => some s
  | _ => none

/-- C60, finding: a second call starts with the values of the first: the list has the words of both. -/
theorem second_parse_false :
    (after (parse exWorld 1 (exPlain [.addOption [108] 108 [] [] .append]) [⟨108, some ⟨[120], false⟩⟩] [])).bind
      (fun s => returns (parse exWorld 1 s [⟨108, some ⟨[121], false⟩⟩] [])) =
    some (.map [([108], .list [.str [120], .str [121]])]) := by rfl

end Verif.Args
