import Verif.Args.SchemaVal
import Verif.Schema.MetaSpec
/-!
# Specification: well-formed descriptions

What `ArgParse::Validate` is for (include/Variant/ArgParse.h 375-379): the keys of a description, and what may be under
each.  `IsText`, `IsFlag`, `IsRegex`, `IsSize`, `SetOf` and `MapOf` are from Schema/MetaSpec.lean.
-/

namespace Verif.Args
open Verif Schema

/-- A word for an action. -/
def IsAction (v : Val) : Prop := ∃ w, v = .str w ∧ w ∈
  [wStore, wStoreConst, wStoreTrue, wStoreFalse, wAppend, wCount, wHelp, wAdvHelp, wConfig, wConfigJson, wConfigYaml, wConfigPlist,
   wConfigPrint]
/-- A word for a type, or null. -/
def IsType (v : Val) : Prop := v = .null ∨ ∃ w, v = .str w ∧ w ∈ [wString, wBoolean, wInteger, wNumber, wNull]
/-- A boolean, a number or a text. -/
def IsChoice (v : Val) : Prop := IsFlag v ∨ isNumber v = true ∨ IsText v
/-- A text of one byte; its size is an `unsigned`. -/
def IsChar (v : Val) : Prop := ∃ t, v = .str t ∧ t.length % 2 ^ 32 = 1

/-- The values under the keys of a map are as they should be; other keys do not matter. -/
def Keys (fs : List (Bytes × (Val → Prop))) (m : List (Bytes × Val)) : Prop := ∀ k P, (k, P) ∈ fs → ∀ v, (k, v) ∈ m → P v

/-- What may be under the keys that options and arguments have in common. -/
def entryForms (E : Env) : List (Bytes × (Val → Prop)) :=
  [(kAction, IsAction),
   (kAdvanced, IsFlag),
   (kConst, fun _ => True),
   (kDefault, fun _ => True),
   (kDescription, IsText),
   (kEnum, SetOf E IsChoice),
   (kMaxArgs, IsSize),
   (kMaxLength, IsSize),
   (kMaximum, fun v => isNumber v = true),
   (kMinArgs, IsSize),
   (kMinLength, IsSize),
   (kMinimum, fun v => isNumber v = true),
   (kPattern, IsRegex E),
   (kRequired, IsFlag),
   (kTitle, IsText),
   (kType, IsType)]

/-- What options and arguments have in common. -/
structure EntryOk (E : Env) (m : List (Bytes × Val)) : Prop where
  keys : Keys (entryForms E) m
  title : (AMap.get m kTitle).isSome = true
  description : (AMap.get m kDescription).isSome = true
  action : (AMap.get m kAction).isSome = true

/-- The description of an option. -/
def OptionOk (E : Env) (v : Val) : Prop := ∃ m, v = .map m ∧ EntryOk E m ∧
  Keys [(kEnv, IsText), (kLongOption, IsText), (kShortOption, IsChar)] m ∧
  ((AMap.get m kShortOption).isSome = true ∨ (AMap.get m kLongOption).isSome = true)

/-- The description of an argument. -/
def ArgumentOk (E : Env) (v : Val) : Prop := ∃ m, v = .map m ∧ EntryOk E m ∧ Keys [(kKeypath, IsText)] m ∧
  (AMap.get m kKeypath).isSome = true

/-- The description of a group. -/
def GroupOk (v : Val) : Prop := ∃ m, v = .map m ∧
  Keys [(kAdvanced, IsFlag), (kDescription, IsText), (kMembers, fun v => ∃ xs, v = .list xs ∧ ∀ x ∈ xs, IsText x), (kExclusive, IsFlag),
    (kRequired, IsFlag), (kTitle, IsText)] m

/-- A description. -/
def DescriptionOk (E : Env) (v : Val) : Prop := ∃ m, v = .map m ∧
  Keys [(kArguments, fun v => ∃ xs, v = .list xs ∧ ∀ x ∈ xs, ArgumentOk E x), (kDescription, IsText), (kEpilog, IsText),
    (kGroups, MapOf GroupOk), (kOptions, MapOf (OptionOk E)), (kTitle, IsText)] m

end Verif.Args
