import Verif.Schema.Words
import Verif.Val.Compare
import Verif.Build.Model
import Verif.Misc.ParseBool
/-!
# Schema validation (src/Schema.cc)

Only the outcome is modelled: whether validation errors and schema errors were recorded, and how
the validation ended.  The two paths and the errors are in Schema/Report.lean; the messages are not
modelled.  Regular expressions, the reference
loader (taken to give one answer for one reference) and the text of floats are parameters.
Lists and maps are taken to have fewer than 2^32 elements where the code iterates by an
`unsigned` index.
-/

namespace Verif.Schema

/-- How a validation function ended (src/Schema.cc 41-75).
* `go serr`: it returned; `serr` tells whether it recorded schema errors (`AddSchemaError`);
* `stop err serr`: `StopValidation`; `err` tells whether a validation error was recorded
  (`AddError`), false when the recursion limit was reached;
* `exn`, `ub`: another exception, undefined behaviour. -/
inductive R where
  | go (serr : Bool)
  | stop (err serr : Bool)
  | exn (e : Err)
  | ub
  deriving DecidableEq, Repr

/-- `none`: not finished within the given number of nested calls. -/
abbrev M := Option R

/-- What the validator does not define itself. -/
structure Env where
  /-- significand bits of `long double` -/
  p : Nat
  /-- `oss << double` -/
  ft : UInt64 → Bytes
  /-- `SchemaLoader::GetSchema` -/
  loader : Bytes → Out Val
  /-- `regcomp` (none: error) and `regexec` on C strings -/
  regex : Bytes → Option (Bytes → Bool)

/-- Nothing to report. -/
def ok : M := some (.go false)
/-- `AddError` (src/Schema.cc 57-67). -/
def err : M := some (.stop true false)
/-- `AddSchemaError`, then go on (src/Schema.cc 69-70). -/
def serr : M := some (.go true)

/-- One statement after the other. -/
def seq (a b : M) : M :=
  match a with
  | some (.go s) => match b with
    | some (.go s') => some (.go (s || s'))
    | some (.stop e s') => some (.stop e (s || s'))
    | r => r
  | r => r

/-- A loop body for each element. -/
def each {α : Type} (f : α → M) : List α → M
  | [] => ok
  | x :: xs => seq (f x) (each f xs)

/-- Use a result of something that may throw. -/
def withOut {α : Type} (o : Out α) (f : α → M) : M :=
  match o with
  | .ok a => f a
  | .throw e => some (.exn e)
  | .ub => some .ub

/-- `IsNumber` (src/Variant.cc 2001). -/
def isNumber (v : Val) : Bool :=
  match v with
  | .int _ => true
  | .uint _ => true
  | .flt _ => true
  | _ => false

/-- `Comparable` (src/Variant.cc 481-492). -/
def comparable (a b : Val) : Bool := a.ty == b.ty || (isNumber a && isNumber b)

/-- `AsUnsigned` of numbers (src/Variant.cc 840, 899, 960): an out-of-range float is undefined
behaviour. -/
def asUnsignedNum : Val → Out UInt64
  | .int i => .ok i.toUInt64
  | .uint u => .ok u
  | .flt b => match LD.ofDouble b with
    | .fin n =>
      let t := Int.tdiv n (2 ^ 1074)
      if 0 ≤ t ∧ t < 2 ^ 64 then .ok (UInt64.ofNat t.toNat) else .ub
    | _ => .ub
  | _ => .throw .unableToConvert

/-- `AsBool` (src/Variant.cc 263, 593, 706, 834, 893, 954, 1033). -/
def asBool : Val → Out Bool
  | .null => .ok false
  | .bool b => .ok b
  | .int i => .ok (i != 0)
  | .uint u => .ok (u != 0)
  | .flt b => .ok (b <<< 1 != 0)
  | .str s => .ok (ParseBool.parseBool s)
  | _ => .throw .unableToConvert

/-- `fmod` on `long double` (src/Variant.cc 38-42): exact; an infinite dividend or a zero divisor
gives NaN. -/
def ldMod : LD → LD → LD
  | .nan, _ => .nan
  | .inf _, _ => .nan
  | .fin _, .nan => .nan
  | .fin a, .inf _ => .fin a
  | .fin a, .fin b => if b = 0 then .nan else .fin (Int.tmod a b)

/-- `FLOAT_TOLERANCE` (src/Schema.cc 36): 100 times 2^(1-p). -/
def tolerance (p : Nat) : LD := .fin (100 * 2 ^ (1075 - p))

/-- `std::abs(m - divisor)`: the difference rounded to `p` bits (no overflow occurs where it
matters: both are positive). -/
def absDiff (p : Nat) : LD → LD → LD
  | .fin a, .fin b => .fin (roundNat p (a - b).natAbs)
  | .fin _, .inf _ => .inf false
  | .inf _, .fin _ => .inf false
  | .inf a, .inf b => if a = b then .nan else .inf false
  | _, _ => .nan

/-- `Size` of strings, lists and maps: `unsigned` (src/Variant.cc 1062, 1203, 1327). -/
def size : Val → Nat
  | .str s => s.length % 2 ^ 32
  | .list xs => xs.length % 2 ^ 32
  | .map m => m.length % 2 ^ 32
  | _ => 0

/-- The schema's entry for a keyword: `schema.Contains(k)` and `schema[k]`. -/
def kw (m : List (Bytes × Val)) (k : Bytes) (f : Val → M) : M :=
  match AMap.get m k with
  | none => ok
  | some v => f v

/-! ## Combinations (src/Schema.cc 115-209) -/

/-- `ValidateNot` (115-126). -/
def vNot (rec : Val → Val → M) (m : List (Bytes × Val)) (d : Val) : M :=
  kw m kNot fun s =>
    match rec s d with
    | some (.stop _ _) => ok
    | some (.go true) => ok
    | some (.go false) => err
    | r => r

/-- The loop of `ValidateOneOf` (140-161) with `num_validates`. -/
def oneOfLoop (rec : Val → Val → M) (d : Val) (num : Nat) : List Val → M
  | [] => if num = 0 then err else ok
  | s :: ss =>
    match rec s d with
    | some (.go false) => if num + 1 > 1 then err else oneOfLoop rec d (num + 1) ss
    | some (.go true) => oneOfLoop rec d num ss
    | some (.stop _ _) => oneOfLoop rec d num ss
    | r => r

/-- `ValidateOneOf` (128-162). -/
def vOneOf (rec : Val → Val → M) (m : List (Bytes × Val)) (d : Val) : M :=
  kw m kOneOf fun v =>
    match v with
    | .list ss => oneOfLoop rec d 0 ss
    | _ => serr

/-- The loop of `ValidateAnyOf` (174-185). -/
def anyOfLoop (rec : Val → Val → M) (d : Val) : List Val → M
  | [] => err
  | s :: ss =>
    match rec s d with
    | some (.go false) => ok
    | some (.go true) => anyOfLoop rec d ss
    | some (.stop _ _) => anyOfLoop rec d ss
    | r => r

/-- `ValidateAnyOf` (164-186). -/
def vAnyOf (rec : Val → Val → M) (m : List (Bytes × Val)) (d : Val) : M :=
  kw m kAnyOf fun v =>
    match v with
    | .list ss => anyOfLoop rec d ss
    | _ => serr

/-- `ValidateAllOf` (188-202). -/
def vAllOf (rec : Val → Val → M) (m : List (Bytes × Val)) (d : Val) : M :=
  kw m kAllOf fun v =>
    match v with
    | .list ss => each (fun s => rec s d) ss
    | _ => serr

/-- `ValidateCombinations` (204-209). -/
def vCombinations (rec : Val → Val → M) (m : List (Bytes × Val)) (d : Val) : M :=
  seq (vAllOf rec m d) (seq (vAnyOf rec m d) (seq (vOneOf rec m d) (vNot rec m d)))

/-! ## Objects (src/Schema.cc 211-410) -/

/-- `ValidateObjectDependenciesHelper` (211-217). -/
def depKey (dm : List (Bytes × Val)) (k : Bytes) : M := if (AMap.get dm k).isSome then ok else err

/-- `ValidateObjectDependencies` (219-248). -/
def vDependencies (E : Env) (rec : Val → Val → M) (m dm : List (Bytes × Val)) : M :=
  kw m kDependencies fun deps =>
    match deps with
    | .map deps =>
      each (fun (k, dep) =>
        if (AMap.get dm k).isSome then
          match dep with
          | .str s => depKey dm s
          | .list ks => each (fun k => withOut (Build.asString E.ft k) (depKey dm)) ks
          | .map _ => rec dep (.map dm)
          | _ => serr
        else ok) deps
    | _ => serr

/-- Compiling `patternProperties` (281-306): the expressions that compile, and whether all did. -/
def compile (E : Env) : List (Bytes × Val) → List ((Bytes → Bool) × Val) × Bool
  | [] => ([], true)
  | (k, s) :: r =>
    let (ps, all) := compile E r
    match E.regex (k.takeWhile (· ≠ 0)) with
    | some f => ((f, s) :: ps, all)
    | none => (ps, false)

/-- `additionalProperties` (331-342) and `additionalItems` (426-434) for one element not covered. -/
def extra (rec : Val → Val → M) (m : List (Bytes × Val)) (k : Bytes) (x : Val) : M :=
  kw m k fun a =>
    match a with
    | .bool true => ok
    | .bool false => err
    | a => rec a x

/-- One property of the data (310-344). -/
def vProperty (rec : Val → Val → M) (m props : List (Bytes × Val)) (pats : List ((Bytes → Bool) × Val))
    (k : Bytes) (x : Val) : M :=
  let hits := pats.filter fun p => p.1 (k.takeWhile (· ≠ 0))
  let declared := AMap.get props k
  seq (match declared with
      | some s => rec s x
      | none => ok)
    (seq (each (fun p => rec p.2 x) hits)
      (if declared.isNone = true ∧ hits = [] then
        extra rec m kAdditionalProperties x
      else ok))

/-- The compiled `patternProperties`, and whether the keyword was in order (283-304). -/
def patternsOf (E : Env) (m : List (Bytes × Val)) : List ((Bytes → Bool) × Val) × Bool :=
  match AMap.get m kPatternProperties with
  | none => ([], true)
  | some (.map ps) => compile E ps
  | some _ => ([], false)

/-- The `properties`, and whether the keyword was in order (305-309). -/
def propertiesOf (m : List (Bytes × Val)) : List (Bytes × Val) × Bool :=
  match AMap.get m kProperties with
  | none => ([], true)
  | some (.map ps) => (ps, true)
  | some _ => ([], false)

/-- `ValidateObjectProperties` (281-345). -/
def vProperties (E : Env) (rec : Val → Val → M) (m dm : List (Bytes × Val)) : M :=
  seq (some (.go (!(patternsOf E m).2))) (seq (some (.go (!(propertiesOf m).2)))
    (each (fun p => vProperty rec m (propertiesOf m).1 (patternsOf E m).1 p.1 p.2) dm))

/-- One element of `required` (360-369). -/
def requiredKey (dm : List (Bytes × Val)) (k : Val) : M :=
  match k with
  | .str k => if (AMap.get dm k).isSome then ok else err
  | _ => serr

/-- `ValidateObjectRequiredProperties` (347-373). -/
def vRequired (m dm : List (Bytes × Val)) : M :=
  kw m kRequired fun r =>
    match r with
    | .list ks => each (requiredKey dm) ks
    | _ => serr

/-- The four pairs of size limits (375-402, 466-493, 606-635): the limit as a number, `Size`
below it or above it. -/
def sizeLimit (m : List (Bytes × Val)) (k : Bytes) (bad : UInt64 → Bool) : M :=
  kw m k fun l =>
    if isNumber l then withOut (asUnsignedNum l) fun u => if bad u then err else ok
    else serr

/-- `ValidateObjectMinMaxProperties` (375-402). -/
def vPropertyCount (m : List (Bytes × Val)) (d : Val) : M :=
  seq (sizeLimit m kMinProperties fun u => size d < u.toNat)
    (sizeLimit m kMaxProperties fun u => size d > u.toNat)

/-- `ValidateObject` (404-410). -/
def vObject (E : Env) (rec : Val → Val → M) (m : List (Bytes × Val)) (d : Val) : M :=
  match d with
  | .map dm => seq (vPropertyCount m d) (seq (vRequired m dm)
      (seq (vProperties E rec m dm) (vDependencies E rec m dm)))
  | _ => ok

/-! ## Arrays (src/Schema.cc 412-500) -/

/-- The loop of `ValidateArrayItems` for a list of item schemas (418-434). -/
def itemsLoop (rec : Val → Val → M) (m : List (Bytes × Val)) : List Val → List Val → M
  | _, [] => ok
  | s :: ss, x :: xs => seq (rec s x) (itemsLoop rec m ss xs)
  | [], x :: xs => seq (extra rec m kAdditionalItems x) (itemsLoop rec m [] xs)

/-- `ValidateArrayItems` (412-444). -/
def vItems (rec : Val → Val → M) (m : List (Bytes × Val)) (xs : List Val) : M :=
  kw m kItems fun items =>
    match items with
    | .list ss => itemsLoop rec m ss xs
    | s => each (fun x => rec s x) xs

/-- The two loops of `ValidateArrayUniqueItems` (455-463). -/
def uniqueLoop (E : Env) : List Val → M
  | [] => ok
  | x :: xs =>
    seq (each (fun y => if comparable x y && cmp E.p x y == 0 then err else ok) xs) (uniqueLoop E xs)

/-- `ValidateArrayUniqueItems` (446-464). -/
def vUniqueItems (E : Env) (m : List (Bytes × Val)) (xs : List Val) : M :=
  kw m kUniqueItems fun u =>
    match u with
    | .bool true => uniqueLoop E xs
    | .bool false => ok
    | _ => serr

/-- `ValidateArrayLength` (466-493). -/
def vArrayLength (m : List (Bytes × Val)) (d : Val) : M :=
  seq (sizeLimit m kMinItems fun u => size d < u.toNat)
    (sizeLimit m kMaxItems fun u => size d > u.toNat)

/-- `ValidateArray` (495-500). -/
def vArray (E : Env) (rec : Val → Val → M) (m : List (Bytes × Val)) (d : Val) : M :=
  match d with
  | .list xs => seq (vArrayLength m d) (seq (vUniqueItems E m xs) (vItems rec m xs))
  | _ => ok

/-! ## Strings (src/Schema.cc 502-642) -/

/-- Compile an expression and match the string (545-567, 580-603). -/
def matchRe (E : Env) (re s : Bytes) : M :=
  match E.regex re with
  | none => serr
  | some g => if g (s.takeWhile (· ≠ 0)) then ok else err

/-- `ValidateStringFormat` (502-570). -/
def vFormat (E : Env) (m : List (Bytes × Val)) (s : Bytes) : M :=
  kw m kFormat fun f =>
    match f with
    | .str f =>
      if f = wRegex then (if (E.regex (s.takeWhile (· ≠ 0))).isSome then ok else err)
      else
        let pat := if f = wDateTime then reDateTime else if f = wDate then reDate
          else if f = wTime then reTime else []
        if pat = [] then ok else matchRe E pat s
    | _ => ok

/-- `ValidateStringPattern` (572-604). -/
def vPattern (E : Env) (m : List (Bytes × Val)) (s : Bytes) : M :=
  kw m kPattern fun p =>
    match p with
    | .str p => matchRe E (p.takeWhile (· ≠ 0)) s
    | _ => serr

/-- `ValidateStringLength` (606-635). -/
def vStringLength (m : List (Bytes × Val)) (d : Val) : M :=
  seq (sizeLimit m kMinLength fun u => size d < u.toNat)
    (sizeLimit m kMaxLength fun u => size d > u.toNat)

/-- `ValidateString` (637-642). -/
def vString (E : Env) (m : List (Bytes × Val)) (d : Val) : M :=
  match d with
  | .str s => seq (vStringLength m d) (seq (vPattern E m s) (vFormat E m s))
  | _ => ok

/-! ## Numbers (src/Schema.cc 644-735) -/

/-- One half of `ValidateMinMax` (644-689): `bad c` for the inclusive test, where `c` is the
comparison of the data with the limit. -/
def limit (E : Env) (m : List (Bytes × Val)) (k kx : Bytes) (d : Val) (bad : Int → Bool) : M :=
  kw m k fun l =>
    if isNumber l then
      if bad (cmp E.p d l) then err
      else kw m kx fun x => withOut (asBool x) fun x => if x && cmp E.p d l == 0 then err else ok
    else serr

/-- `ValidateMinMax` (644-689). -/
def vMinMax (E : Env) (m : List (Bytes × Val)) (d : Val) : M :=
  seq (limit E m kMinimum kExclusiveMinimum d fun c => c < 0)
    (limit E m kMaximum kExclusiveMaximum d fun c => c > 0)

/-- `ValidateMultipleOf` (691-729). -/
def vMultipleOf (E : Env) (m : List (Bytes × Val)) (d : Val) : M :=
  match (AMap.get m kMultipleOf).or (AMap.get m kDivisibleBy) with
  | none => ok
  | some q =>
    if isNumber q = false ∨ cmp E.p q (.int 0) < 0 then serr
    else if d.ty = .flt ∨ q.ty = .flt then
      match numLD E.p d, numLD E.p q with
      | some a, some b =>
        let r := ldMod a b
        if LD.lt (tolerance E.p) r && LD.lt (tolerance E.p) (absDiff E.p r b) then err else ok
      | _, _ => ok
    else withOut (arith (fun _ v _ => v) .rem d q) fun r =>
      if cmp E.p r (.int 0) = 0 then ok else err

/-- `ValidateNumeric` (731-735). -/
def vNumeric (E : Env) (m : List (Bytes × Val)) (d : Val) : M :=
  if isNumber d then seq (vMultipleOf E m d) (vMinMax E m d) else ok

/-! ## Any value (src/Schema.cc 737-809) -/

/-- `ValidateEnum` (737-752). -/
def vEnum (E : Env) (m : List (Bytes × Val)) (d : Val) : M :=
  kw m kEnum fun e =>
    match e with
    | .list vs => if vs.any fun v => comparable v d && cmp E.p v d == 0 then ok else err
    | _ => serr

/-- Whether the data has the named type (769-784); `none` for an unknown name. -/
def hasType (E : Env) (d : Val) (w : Val) : Option Bool :=
  match w with
  | .str w =>
    if w = wArray then some (d.ty == .list)
    else if w = wBoolean then some (d.ty == .bool)
    else if w = wInteger then
      some (d.ty == .int || d.ty == .uint ||
        (d.ty == .flt && (numLD E.p d).any fun a => ldCompare (ldMod a (LD.ofInt E.p 1)) (LD.ofInt E.p 0) == 0))
    else if w = wNull then some (d.ty == .null)
    else if w = wNumber then some (isNumber d)
    else if w = wObject then some (d.ty == .map)
    else if w = wString then some (d.ty == .str)
    else none
  | _ => none

/-- The loop of `ValidateType` (767-790). -/
def typeLoop (E : Env) (d : Val) : List Val → M
  | [] => err
  | w :: ws =>
    match hasType E d w with
    | some true => ok
    | some false => typeLoop E d ws
    | none => withOut (Build.asString E.ft w) fun _ => seq serr (typeLoop E d ws)

/-- `ValidateType` (754-804). -/
def vType (E : Env) (m : List (Bytes × Val)) (d : Val) : M :=
  kw m kType fun t =>
    match t with
    | .list ws => typeLoop E d ws
    | w => typeLoop E d [w]

/-! ## `SchemaValidate` -/

/-- The reference (src/Schema.cc 815-817). -/
def vRef (E : Env) (rec : Val → Val → M) (m : List (Bytes × Val)) (d : Val) : M :=
  kw m kRef fun r =>
    match r with
    | .str s => withOut (E.loader s) fun t => rec t d
    | _ => ok

/-- The body of `SchemaValidate` for an object schema (src/Schema.cc 815-823). -/
def body (E : Env) (rec : Val → Val → M) (m : List (Bytes × Val)) (d : Val) : M :=
  seq (vRef E rec m d) (seq (vType E m d) (seq (vEnum E m d) (seq (vNumeric E m d)
    (seq (vString E m d) (seq (vArray E rec m d) (seq (vObject E rec m d) (vCombinations rec m d)))))))

/-- `RECURSION_LIMIT` (src/Schema.cc 37). -/
def recursionLimit : Nat := 100

/-- `SchemaValidate` (src/Schema.cc 811-824) with `AutoDepth` (107-111, 72-80).  `depth` is the
context's depth counter before the call; `fuel` is the number of nested calls the model is
allowed (`none` when it runs out). -/
def validate (E : Env) : Nat → Nat → Val → Val → M
  | 0, _, _, _ => none
  | fuel + 1, depth, s, d =>
    if depth + 1 > recursionLimit then some (.stop false true)
    else match s with
      | .map m => body E (validate E fuel (depth + 1)) m d
      | _ => ok

/-- What the caller sees (src/Schema.cc 826-841): the flags of the result, or an exception. -/
structure Result where
  errors : Bool
  schemaErrors : Bool
  deriving DecidableEq, Repr

/-- The schema given (src/Schema.cc 829-834): a null schema refers to the data's own `$schema`; a
text is a reference. -/
def topSchema (E : Env) (s d : Val) : Out Val :=
  let s := match s, d with
    | .null, .map dm => match AMap.get dm kSchema with
      | some r => Val.map [(kRef, r)]
      | none => s
    | _, _ => s
  match s with
  | .str u => E.loader u
  | s => .ok s

/-- `SchemaValidate(schema, data, loader)` (src/Schema.cc 826-841).  `E.loader` is the loader
after `AddSchema("", schema)`. -/
def validateTop (E : Env) (fuel : Nat) (s d : Val) : Option (Out Result) :=
  match topSchema E s d with
  | .throw e => some (.throw e)
  | .ub => some .ub
  | .ok s => match validate E fuel 0 s d with
    | none => none
    | some (.go se) => some (.ok ⟨false, se⟩)
    | some (.stop e se) => some (.ok ⟨e, se⟩)
    | some (.exn e) => some (.throw e)
    | some .ub => some .ub

end Verif.Schema
