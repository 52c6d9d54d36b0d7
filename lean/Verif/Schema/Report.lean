import Verif.Schema.Whole
/-!
# What a validation reports (src/Schema.cc, include/Variant/Schema.h 36-93)

`Schema/Model.lean` has only whether errors were recorded.  Here the validator is modelled again, function by function,
with the two paths of its context and the errors it records: where in the data, where in the schema, and the results of
the alternatives that failed.  Not modelled: the texts of the messages.  `Schema/ReportAgrees.lean` proves
that both models agree.
-/

namespace Verif.Schema
open Verif

/-- `ValidationError` (include/Variant/Schema.h 36-57) without its message; a `SchemaResult` (74-93) is the errors and
the paths of the schema errors. -/
inductive Note where
  | mk (data schema : VPath) (subs : List (List Note × List VPath))

/-- `SchemaResult` (include/Variant/Schema.h 74-93); of a `SchemaError` (59-72) there is the path. -/
abbrev Report := List Note × List VPath

/-- `GetDataPath` (include/Variant/Schema.h 44). -/
def Note.data : Note → VPath
  | .mk d _ _ => d
/-- `GetSchemaPath` (include/Variant/Schema.h 46). -/
def Note.schema : Note → VPath
  | .mk _ s _ => s
/-- `GetSubErrors` (include/Variant/Schema.h 48). -/
def Note.subs : Note → List Report
  | .mk _ _ r => r

/-- How a function ended, with what it added to the result (src/Schema.cc 41-93). -/
inductive D where
  | go (serrs : List VPath)
  | stop (errs : List Note) (serrs : List VPath)
  | exn (e : Err)
  | ub

abbrev DM := Option D

/-- The two paths of `SchemaContext` (src/Schema.cc 45-93); a copy has them but not the result (46-51). -/
structure Ctx where
  data : VPath
  schema : VPath

/-- `AutoSchemaPath` (src/Schema.cc 101-105). -/
def Ctx.at (c : Ctx) (e : PathElem) : Ctx := ⟨c.data, c.schema ++ [e]⟩
/-- `AutoDataPath` (src/Schema.cc 95-99). -/
def Ctx.into (c : Ctx) (e : PathElem) : Ctx := ⟨c.data ++ [e], c.schema⟩

/-- A position as a path element. -/
def idx (i : Nat) : PathElem := .index (UInt32.ofNat i)

/-- Nothing to report. -/
def okD : DM := some (.go [])
/-- `AddError` (src/Schema.cc 58-69). -/
def errD (c : Ctx) (subs : List Report) : DM := some (.stop [.mk c.data c.schema subs] [])
/-- `AddSchemaError` (src/Schema.cc 71-72). -/
def serrD (c : Ctx) : DM := some (.go [c.schema])

/-- One statement after the other. -/
def seqD (a b : DM) : DM :=
  match a with
  | some (.go s) => match b with
    | some (.go s') => some (.go (s ++ s'))
    | some (.stop e s') => some (.stop e (s ++ s'))
    | r => r
  | r => r

/-- A loop with its counter. -/
def eachD {α : Type} (f : Nat → α → DM) : Nat → List α → DM
  | _, [] => okD
  | i, x :: xs => seqD (f i x) (eachD f (i + 1) xs)

/-- Use a result of something that may throw. -/
def withOutD {α : Type} (o : Out α) (f : α → DM) : DM :=
  match o with
  | .ok a => f a
  | .throw e => some (.exn e)
  | .ub => some .ub

/-- The schema's entry for a keyword, with the keyword on the path. -/
def kwD (m : List (Bytes × Val)) (k : Bytes) (c : Ctx) (f : Ctx → Val → DM) : DM :=
  match AMap.get m k with
  | none => okD
  | some v => f (c.at (.key k)) v

abbrev RecD := Ctx → Val → Val → DM

/-! ## Combinations (src/Schema.cc 115-209) -/

/-- `ValidateNot` (115-126). -/
def vNotD (rec : RecD) (c : Ctx) (m : List (Bytes × Val)) (d : Val) : DM :=
  kwD m kNot c fun c s =>
    match rec c s d with
    | some (.stop _ _) => okD
    | some (.go []) => errD c []
    | some (.go _) => okD
    | r => r

/-- The loop of `ValidateOneOf` (137-161): `num_validates`, `index`, the sub errors so far. -/
def oneOfLoopD (rec : RecD) (c : Ctx) (d : Val) (num i : Nat) (subs : List Report) : List Val → DM
  | [] => if num = 0 then errD c subs else okD
  | s :: ss =>
    match rec (c.at (idx i)) s d with
    | some (.go []) => if num + 1 > 1 then errD c [] else oneOfLoopD rec c d (num + 1) (i + 1) subs ss
    | some (.go q) => oneOfLoopD rec c d num (i + 1) (subs ++ [([], q)]) ss
    | some (.stop e q) =>
      oneOfLoopD rec c d num (i + 1) (if e.isEmpty && q.isEmpty then subs else subs ++ [(e, q)]) ss
    | r => r

/-- `ValidateOneOf` (128-162). -/
def vOneOfD (rec : RecD) (c : Ctx) (m : List (Bytes × Val)) (d : Val) : DM :=
  kwD m kOneOf c fun c v =>
    match v with
    | .list ss => oneOfLoopD rec c d 0 0 [] ss
    | _ => serrD c

/-- The loop of `ValidateAnyOf` (173-185). -/
def anyOfLoopD (rec : RecD) (c : Ctx) (d : Val) (i : Nat) (subs : List Report) : List Val → DM
  | [] => errD c subs
  | s :: ss =>
    match rec (c.at (idx i)) s d with
    | some (.go []) => okD
    | some (.go q) => anyOfLoopD rec c d (i + 1) (subs ++ [([], q)]) ss
    | some (.stop e q) => anyOfLoopD rec c d (i + 1) (subs ++ [(e, q)]) ss
    | r => r

/-- `ValidateAnyOf` (164-186). -/
def vAnyOfD (rec : RecD) (c : Ctx) (m : List (Bytes × Val)) (d : Val) : DM :=
  kwD m kAnyOf c fun c v =>
    match v with
    | .list ss => anyOfLoopD rec c d 0 [] ss
    | _ => serrD c

/-- `ValidateAllOf` (188-202). -/
def vAllOfD (rec : RecD) (c : Ctx) (m : List (Bytes × Val)) (d : Val) : DM :=
  kwD m kAllOf c fun c v =>
    match v with
    | .list ss => eachD (fun i s => rec (c.at (idx i)) s d) 0 ss
    | _ => serrD c

/-- `ValidateCombinations` (204-209). -/
def vCombinationsD (rec : RecD) (c : Ctx) (m : List (Bytes × Val)) (d : Val) : DM :=
  seqD (vAllOfD rec c m d) (seqD (vAnyOfD rec c m d) (seqD (vOneOfD rec c m d) (vNotD rec c m d)))

/-! ## Objects (src/Schema.cc 211-410) -/

/-- `ValidateObjectDependenciesHelper` (211-217). -/
def depKeyD (c : Ctx) (dm : List (Bytes × Val)) (k : Bytes) : DM := if (AMap.get dm k).isSome then okD else errD c []

/-- One dependency (227-245). -/
def vDependencyD (E : Env) (rec : RecD) (c : Ctx) (dm : List (Bytes × Val)) (k : Bytes) (dep : Val) : DM :=
  if (AMap.get dm k).isSome then
    match dep with
    | .str s => depKeyD (c.at (.key k)) dm s
    | .list ks => eachD (fun j x => withOutD (Build.asString E.ft x) (depKeyD ((c.at (.key k)).at (idx j)) dm)) 0 ks
    | .map _ => rec (c.at (.key k)) dep (.map dm)
    | _ => serrD (c.at (.key k))
  else okD

/-- `ValidateObjectDependencies` (219-248). -/
def vDependenciesD (E : Env) (rec : RecD) (c : Ctx) (m dm : List (Bytes × Val)) : DM :=
  kwD m kDependencies c fun c deps =>
    match deps with
    | .map deps => eachD (fun _ e => vDependencyD E rec c dm e.1 e.2) 0 deps
    | _ => serrD c

/-- Compiling `patternProperties` (284-302): the expressions that compile, with their texts, and the paths of those that
do not. -/
def compileD (E : Env) (c : Ctx) : List (Bytes × Val) → List (Bytes × (Bytes → Bool) × Val) × List VPath
  | [] => ([], [])
  | (k, s) :: r =>
    match E.regex (k.takeWhile (· ≠ 0)) with
    | some f => ((k, f, s) :: (compileD E c r).1, (compileD E c r).2)
    | none => ((compileD E c r).1, (c.at (.key k)).schema :: (compileD E c r).2)

/-- The compiled `patternProperties`, and the schema errors (282-304). -/
def patternsOfD (E : Env) (c : Ctx) (m : List (Bytes × Val)) : List (Bytes × (Bytes → Bool) × Val) × List VPath :=
  match AMap.get m kPatternProperties with
  | none => ([], [])
  | some (.map ps) => compileD E (c.at (.key kPatternProperties)) ps
  | some _ => ([], [(c.at (.key kPatternProperties)).schema])

/-- The `properties`, and the schema errors (305-309): the keyword is not put on the path. -/
def propertiesOfD (c : Ctx) (m : List (Bytes × Val)) : List (Bytes × Val) × List VPath :=
  match AMap.get m kProperties with
  | none => ([], [])
  | some (.map ps) => (ps, [])
  | some _ => ([], [c.schema])

/-- `additionalProperties` (331-342) and `additionalItems` (426-434) for one element not covered. -/
def extraD (rec : RecD) (c : Ctx) (m : List (Bytes × Val)) (k : Bytes) (x : Val) : DM :=
  kwD m k c fun c a =>
    match a with
    | .bool true => okD
    | .bool false => errD c []
    | a => rec c a x

/-- One property of the data (310-344). -/
def vPropertyD (rec : RecD) (c : Ctx) (m props : List (Bytes × Val)) (pats : List (Bytes × (Bytes → Bool) × Val))
    (k : Bytes) (x : Val) : DM :=
  let hits := pats.filter fun p => p.2.1 (k.takeWhile (· ≠ 0))
  let declared := AMap.get props k
  seqD (match declared with
      | some s => rec (((c.into (.key k)).at (.key kProperties)).at (.key k)) s x
      | none => okD)
    (seqD (eachD (fun _ p => rec (((c.into (.key k)).at (.key kPatternProperties)).at (.key p.1)) p.2.2 x) 0 hits)
      (if declared.isNone = true ∧ hits = [] then extraD rec (c.into (.key k)) m kAdditionalProperties x else okD))

/-- `ValidateObjectProperties` (281-345). -/
def vPropertiesD (E : Env) (rec : RecD) (c : Ctx) (m dm : List (Bytes × Val)) : DM :=
  seqD (some (.go (patternsOfD E c m).2)) (seqD (some (.go (propertiesOfD c m).2))
    (eachD (fun _ p => vPropertyD rec c m (propertiesOfD c m).1 (patternsOfD E c m).1 p.1 p.2) 0 dm))

/-- One element of `required` (358-370). -/
def requiredKeyD (c : Ctx) (dm : List (Bytes × Val)) (k : Val) : DM :=
  match k with
  | .str k => if (AMap.get dm k).isSome then okD else errD c []
  | _ => serrD c

/-- `ValidateObjectRequiredProperties` (347-373). -/
def vRequiredD (c : Ctx) (m dm : List (Bytes × Val)) : DM :=
  kwD m kRequired c fun c r =>
    match r with
    | .list ks => eachD (fun i k => requiredKeyD (c.at (idx i)) dm k) 0 ks
    | _ => serrD c

/-- The four pairs of size limits (375-402, 466-493, 606-635). -/
def sizeLimitD (c : Ctx) (m : List (Bytes × Val)) (k : Bytes) (bad : UInt64 → Bool) : DM :=
  kwD m k c fun c l =>
    if isNumber l then withOutD (asUnsignedNum l) fun u => if bad u then errD c [] else okD
    else serrD c

/-- Both limits of a size (375-402, 466-493, 606-635). -/
def vSizeD (c : Ctx) (m : List (Bytes × Val)) (kmin kmax : Bytes) (d : Val) : DM :=
  seqD (sizeLimitD c m kmin fun u => size d < u.toNat) (sizeLimitD c m kmax fun u => size d > u.toNat)

/-- `ValidateObject` (404-410). -/
def vObjectD (E : Env) (rec : RecD) (c : Ctx) (m : List (Bytes × Val)) (d : Val) : DM :=
  match d with
  | .map dm => seqD (vSizeD c m kMinProperties kMaxProperties d) (seqD (vRequiredD c m dm)
      (seqD (vPropertiesD E rec c m dm) (vDependenciesD E rec c m dm)))
  | _ => okD

/-! ## Arrays (src/Schema.cc 412-500) -/

/-- The loop of `ValidateArrayItems` for a list of item schemas (418-434). -/
def itemsLoopD (rec : RecD) (c : Ctx) (m : List (Bytes × Val)) : Nat → List Val → List Val → DM
  | _, _, [] => okD
  | i, s :: ss, x :: xs =>
    seqD (rec (((c.into (idx i)).at (.key kItems)).at (idx i)) s x) (itemsLoopD rec c m (i + 1) ss xs)
  | i, [], x :: xs => seqD (extraD rec (c.into (idx i)) m kAdditionalItems x) (itemsLoopD rec c m (i + 1) [] xs)

/-- `ValidateArrayItems` (412-444). -/
def vItemsD (rec : RecD) (c : Ctx) (m : List (Bytes × Val)) (xs : List Val) : DM :=
  match AMap.get m kItems with
  | none => okD
  | some items => match items with
    | .list ss => itemsLoopD rec c m 0 ss xs
    | s => eachD (fun i x => rec ((c.into (idx i)).at (.key kItems)) s x) 0 xs

/-- The two loops of `ValidateArrayUniqueItems` (455-463). -/
def uniqueLoopD (E : Env) (c : Ctx) : List Val → DM
  | [] => okD
  | x :: xs =>
    seqD (eachD (fun _ y => if comparable x y && cmp E.p x y == 0 then errD c [] else okD) 0 xs) (uniqueLoopD E c xs)

/-- `ValidateArrayUniqueItems` (446-464). -/
def vUniqueItemsD (E : Env) (c : Ctx) (m : List (Bytes × Val)) (xs : List Val) : DM :=
  kwD m kUniqueItems c fun c u =>
    match u with
    | .bool true => uniqueLoopD E c xs
    | .bool false => okD
    | _ => serrD c

/-- `ValidateArray` (495-500). -/
def vArrayD (E : Env) (rec : RecD) (c : Ctx) (m : List (Bytes × Val)) (d : Val) : DM :=
  match d with
  | .list xs => seqD (vSizeD c m kMinItems kMaxItems d) (seqD (vUniqueItemsD E c m xs) (vItemsD rec c m xs))
  | _ => okD

/-! ## Strings (src/Schema.cc 502-642) -/

/-- Compile an expression and match the string (545-567, 580-603). -/
def matchReD (E : Env) (c : Ctx) (re s : Bytes) : DM :=
  match E.regex re with
  | none => serrD c
  | some g => if g (s.takeWhile (· ≠ 0)) then okD else errD c []

/-- `ValidateStringFormat` (502-570). -/
def vFormatD (E : Env) (c : Ctx) (m : List (Bytes × Val)) (s : Bytes) : DM :=
  kwD m kFormat c fun c f =>
    match f with
    | .str f =>
      if f = wRegex then (if (E.regex (s.takeWhile (· ≠ 0))).isSome then okD else errD c [])
      else
        let pat := if f = wDateTime then reDateTime else if f = wDate then reDate
          else if f = wTime then reTime else []
        if pat = [] then okD else matchReD E c pat s
    | _ => okD

/-- `ValidateStringPattern` (572-604). -/
def vPatternD (E : Env) (c : Ctx) (m : List (Bytes × Val)) (s : Bytes) : DM :=
  kwD m kPattern c fun c p =>
    match p with
    | .str p => matchReD E c (p.takeWhile (· ≠ 0)) s
    | _ => serrD c

/-- `ValidateString` (637-642). -/
def vStringD (E : Env) (c : Ctx) (m : List (Bytes × Val)) (d : Val) : DM :=
  match d with
  | .str s => seqD (vSizeD c m kMinLength kMaxLength d) (seqD (vPatternD E c m s) (vFormatD E c m s))
  | _ => okD

/-! ## Numbers (src/Schema.cc 644-735) -/

/-- One half of `ValidateMinMax` (644-689). -/
def limitD (E : Env) (c : Ctx) (m : List (Bytes × Val)) (k kx : Bytes) (d : Val) (bad : Int → Bool) : DM :=
  kwD m k c fun ck l =>
    if isNumber l then
      if bad (cmp E.p d l) then errD ck []
      else kwD m kx c fun cx x => withOutD (asBool x) fun x => if x && cmp E.p d l == 0 then errD cx [] else okD
    else serrD ck

/-- `ValidateMinMax` (644-689). -/
def vMinMaxD (E : Env) (c : Ctx) (m : List (Bytes × Val)) (d : Val) : DM :=
  seqD (limitD E c m kMinimum kExclusiveMinimum d fun c => c < 0)
    (limitD E c m kMaximum kExclusiveMaximum d fun c => c > 0)

/-- The keyword found first (691-699). -/
def multKey (m : List (Bytes × Val)) : Bytes := if (AMap.get m kMultipleOf).isSome then kMultipleOf else kDivisibleBy

/-- `ValidateMultipleOf` (691-729). -/
def vMultipleOfD (E : Env) (c : Ctx) (m : List (Bytes × Val)) (d : Val) : DM :=
  kwD m (multKey m) c fun c q =>
    if isNumber q = false ∨ cmp E.p q (.int 0) < 0 then serrD c
    else if d.ty = .flt ∨ q.ty = .flt then
      match numLD E.p d, numLD E.p q with
      | some a, some b =>
        let r := ldMod a b
        if LD.lt (tolerance E.p) r && LD.lt (tolerance E.p) (absDiff E.p r b) then errD c [] else okD
      | _, _ => okD
    else withOutD (arith (fun _ v _ => v) .rem d q) fun r =>
      if cmp E.p r (.int 0) = 0 then okD else errD c []

/-- `ValidateNumeric` (731-735). -/
def vNumericD (E : Env) (c : Ctx) (m : List (Bytes × Val)) (d : Val) : DM :=
  if isNumber d then seqD (vMultipleOfD E c m d) (vMinMaxD E c m d) else okD

/-! ## Any value (src/Schema.cc 737-809) -/

/-- `ValidateEnum` (737-752); writing the value into the message is taken to succeed. -/
def vEnumD (E : Env) (c : Ctx) (m : List (Bytes × Val)) (d : Val) : DM :=
  kwD m kEnum c fun c e =>
    match e with
    | .list vs => if vs.any fun v => comparable v d && cmp E.p v d == 0 then okD else errD c []
    | _ => serrD c

/-- The loop of `ValidateType` (767-790). -/
def typeLoopD (E : Env) (c : Ctx) (d : Val) : Nat → List Val → DM
  | _, [] => errD c []
  | i, w :: ws =>
    match hasType E d w with
    | some true => okD
    | some false => typeLoopD E c d (i + 1) ws
    | none => withOutD (Build.asString E.ft w) fun _ => seqD (serrD (c.at (idx i))) (typeLoopD E c d (i + 1) ws)

/-- `ValidateType` (754-804). -/
def vTypeD (E : Env) (c : Ctx) (m : List (Bytes × Val)) (d : Val) : DM :=
  kwD m kType c fun c t =>
    match t with
    | .list ws => typeLoopD E c d 0 ws
    | w => typeLoopD E c d 0 [w]

/-! ## `SchemaValidate` -/

/-- The reference (src/Schema.cc 815-817): it is not put on the path. -/
def vRefD (E : Env) (rec : RecD) (c : Ctx) (m : List (Bytes × Val)) (d : Val) : DM :=
  match AMap.get m kRef with
  | none => okD
  | some r => match r with
    | .str s => withOutD (E.loader s) fun t => rec c t d
    | _ => okD

/-- The body of `SchemaValidate` for an object schema (src/Schema.cc 815-823). -/
def bodyD (E : Env) (rec : RecD) (c : Ctx) (m : List (Bytes × Val)) (d : Val) : DM :=
  seqD (vRefD E rec c m d) (seqD (vTypeD E c m d) (seqD (vEnumD E c m d) (seqD (vNumericD E c m d)
    (seqD (vStringD E c m d) (seqD (vArrayD E rec c m d) (seqD (vObjectD E rec c m d) (vCombinationsD rec c m d)))))))

/-- `SchemaValidate` (src/Schema.cc 811-824) with `IncrDepth` (74-82). -/
def validateD (E : Env) : Nat → Nat → Ctx → Val → Val → DM
  | 0, _, _, _, _ => none
  | fuel + 1, depth, c, s, d =>
    if depth + 1 > recursionLimit then some (.stop [] [c.schema])
    else match s with
      | .map m => bodyD E (validateD E fuel (depth + 1)) c m d
      | _ => okD

/-- What the caller gets (836-840). -/
def outcomeD : DM → Option (Out Report)
  | none => none
  | some (.go q) => some (.ok ([], q))
  | some (.stop e q) => some (.ok (e, q))
  | some (.exn e) => some (.throw e)
  | some .ub => some .ub

/-- `SchemaValidate(schema, data, loader)` (src/Schema.cc 826-841), as `schemaValidate`. -/
def schemaReport (E : Env) (builtin : Bytes × Val) (bases : List Loader.Layer) (s d : Val) : Option (Out Report) :=
  match chosenSchema E.p builtin bases s d with
  | .throw e => some (.throw e)
  | .ub => some .ub
  | .ok s => outcomeD (validateD { E with loader := lookup E.p builtin bases s } (recursionLimit + 1) 0 ⟨[], []⟩ (Loader.norm [] s) d)

end Verif.Schema
