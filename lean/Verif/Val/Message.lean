import Verif.Val.Errors
import Verif.Ext.PointerLemmas
import Verif.Json.Emit
import Verif.Texts
/-!
# What the exceptions say (C125)

The texts of the exceptions, in a build without ENABLE_STACKTRACE (which only a debug build sets,
CMakeLists.txt 70-71).  The exception of a lookup is modelled here once more with the values it carries.
-/

namespace Verif.Msg
open Verif.JsonEmit (intDec)
open Verif.Ext (natDec_inj)

/-! ## Model -/

/-- `operator<<(ostream, Type_t)` (src/Exceptions.cc 27-61).  A `Type_t` is any number. -/
def typeName (t : Int) : Bytes :=
  if t = 0 then [78, 117, 108, 108, 84, 121, 112, 101]
  else if t = 1 then [66, 111, 111, 108, 84, 121, 112, 101]
  else if t = 2 then [73, 110, 116, 101, 103, 101, 114, 84, 121, 112, 101]
  else if t = 3 then [85, 110, 115, 105, 103, 110, 101, 100, 84, 121, 112, 101]
  else if t = 4 then [70, 108, 111, 97, 116, 84, 121, 112, 101]
  else if t = 5 then [83, 116, 114, 105, 110, 103, 84, 121, 112, 101]
  else if t = 6 then [76, 105, 115, 116, 84, 121, 112, 101]
  else if t = 7 then [77, 97, 112, 84, 121, 112, 101]
  else if t = 8 then [66, 108, 111, 98, 84, 121, 112, 101]
  else [85, 110, 107, 110, 111, 119, 110, 40] ++ intDec t ++ [41]

/-- What an exception is constructed from (include/Variant/Exceptions.h 29-82), and the `std::out_of_range` of lists. -/
inductive Report where
  | unknownType (t : Int)
  | unexpected (expected value : Int)
  | unexpectedOneOf (expected : List Int) (value : Int)
  | unableToConvert (t : Int) (target : Bytes)
  | notIndexable (t : Int)
  | notNumeric (t : Int)
  | key (k : Bytes)
  | badPath (t : Int)
  | invalidOperation (t : Int) (op : Bytes)
  | outOfRange
  deriving DecidableEq

/-- The types with commas between them (src/Exceptions.cc 90-93). -/
def commas : List Int → Bytes
  | [] => []
  | [t] => typeName t
  | t :: ts => typeName t ++ ([44, 32] ++ commas ts)

/-- `what()` (src/Exceptions.cc 68-196; src/Variant.cc 1188 for lists). -/
def what : Report → Bytes
  | .unknownType t => [85, 110, 107, 110, 111, 119, 110, 32, 118, 97, 114, 105, 97, 110, 116, 32, 116, 121, 112, 101, 32, 34] ++ (typeName t ++ ([34]))
  | .unexpected e v => [85, 110, 101, 120, 112, 101, 99, 116, 101, 100, 32, 118, 97, 114, 105, 97, 110, 116, 32, 116, 121, 112, 101, 32] ++ (typeName v ++ ([32, 101, 120, 112, 101, 99, 116, 101, 100, 32] ++ (typeName e)))
  | .unexpectedOneOf es v => [85, 110, 101, 120, 112, 101, 99, 116, 101, 100, 32, 118, 97, 114, 105, 97, 110, 116, 32, 116, 121, 112, 101, 32] ++ (typeName v ++ ([32, 101, 120, 112, 101, 99, 116, 101, 100, 32, 111, 110, 101, 32, 111, 102, 32] ++ (commas es)))
  | .unableToConvert t s => [85, 110, 97, 98, 108, 101, 32, 116, 111, 32, 99, 111, 110, 118, 101, 114, 116, 32, 118, 97, 114, 105, 97, 110, 116, 32] ++ (typeName t ++ ([32, 116, 111, 32] ++ (s)))
  | .notIndexable t => [86, 97, 114, 105, 97, 110, 116, 32, 116, 121, 112, 101, 32] ++ (typeName t ++ ([32, 105, 115, 32, 110, 111, 116, 32, 97, 110, 32, 105, 110, 100, 101, 120, 97, 98, 108, 101, 32, 116, 121, 112, 101, 46]))
  | .notNumeric t => [86, 97, 114, 105, 97, 110, 116, 32, 116, 121, 112, 101, 32] ++ (typeName t ++ ([32, 110, 111, 116, 32, 97, 32, 110, 117, 109, 101, 114, 105, 99, 32, 116, 121, 112, 101, 46]))
  | .key k => [75, 101, 121, 32, 34] ++ (k ++ ([34, 32, 110, 111, 116, 32, 99, 111, 110, 116, 97, 105, 110, 101, 100, 32, 105, 110, 32, 109, 97, 112, 46]))
  | .badPath t => [86, 97, 114, 105, 97, 110, 116, 32, 112, 97, 116, 104, 115, 32, 100, 111, 32, 110, 111, 116, 32, 97, 108, 108, 111, 119, 32] ++ (typeName t ++ ([32, 97, 115, 32, 97, 32, 112, 97, 116, 104, 32, 101, 108, 101, 109, 101, 110, 116, 46]))
  | .invalidOperation t op => [86, 97, 114, 105, 97, 110, 116, 32, 99, 97, 110, 110, 111, 116, 32, 112, 101, 114, 102, 111, 114, 109, 32, 111, 112, 101, 114, 97, 116, 105, 111, 110, 32] ++ (op ++ ([32, 111, 110, 32, 116, 121, 112, 101, 32] ++ (typeName t)))
  | .outOfRange => [86, 97, 114, 105, 97, 110, 116, 58, 58, 76, 105, 115, 116, 32, 105, 110, 100, 101, 120, 32, 111, 117, 116, 32, 111, 102, 32, 114, 97, 110, 103, 101, 46]

/-- `GetType` as a number (include/Variant/VariantDefines.h 34-44). -/
def tyNum : Ty → Int
  | .null => 0
  | .bool => 1
  | .int => 2
  | .uint => 3
  | .flt => 4
  | .str => 5
  | .list => 6
  | .map => 7
  | .blob => 8

/-- `GetPathElem` with `checked = true`, `GetConstKey`, `GetConstIndex` (src/Variant.cc 309-312, 338-341, 351-365,
627-630, 658-661, 1182-1190, 1307-1316), with what the exceptions are constructed from. -/
def lookup (v : Val) : PathElem → Except Report Val
  | .key k => match v with
    | .map m => match AMap.get m k with
      | some x => .ok x
      | none => .error (.key k)
    | .null => .error (.key k)
    | _ => .error (.unexpected (tyNum .map) (tyNum v.ty))
  | .index i => match v with
    | .list xs => match xs[i.toNat]? with
      | some x => .ok x
      | none => .error .outOfRange
    | .null => .error .outOfRange
    | _ => .error (.unexpected (tyNum .list) (tyNum v.ty))

/-- `GetPathConst` with `checked = true` (src/Variant.cc 409-430). -/
def getPathR (v : Val) : VPath → Except Report Val
  | [] => .ok v
  | e :: p => match lookup v e with
    | .ok c => getPathR c p
    | .error r => .error r

/-- The class of the exception. -/
def Report.cls : Report → Err
  | .unknownType _ => .unknownType
  | .unexpected _ _ => .unexpectedType
  | .unexpectedOneOf _ _ => .unexpectedType
  | .unableToConvert _ _ => .unableToConvert
  | .notIndexable _ => .unexpectedType
  | .notNumeric _ => .notNumeric
  | .key _ => .key
  | .badPath _ => .badPath
  | .invalidOperation _ _ => .invalidOperation
  | .outOfRange => .outOfRange

/-! ## The texts as they stand in the code -/

example : typeName 0 = ascii "NullType" := by decide +kernel
example : typeName 1 = ascii "BoolType" := by decide +kernel
example : typeName 2 = ascii "IntegerType" := by decide +kernel
example : typeName 3 = ascii "UnsignedType" := by decide +kernel
example : typeName 4 = ascii "FloatType" := by decide +kernel
example : typeName 5 = ascii "StringType" := by decide +kernel
example : typeName 6 = ascii "ListType" := by decide +kernel
example : typeName 7 = ascii "MapType" := by decide +kernel
example : typeName 8 = ascii "BlobType" := by decide +kernel
example : typeName 9 = ascii "Unknown(9)" ∧ typeName (-12) = ascii "Unknown(-12)" := by decide +kernel
example : ∀ t, what (.unknownType t) = ascii "Unknown variant type \"" ++ typeName t ++ ascii "\"" := by
  have h0 : ascii "Unknown variant type \"" = [85, 110, 107, 110, 111, 119, 110, 32, 118, 97, 114, 105, 97, 110, 116, 32, 116, 121, 112, 101, 32, 34] := by decide +kernel
  have h1 : ascii "\"" = [34] := by decide +kernel
  intros
  simp [what, h0, h1]
example : ∀ e v, what (.unexpected e v) = ascii "Unexpected variant type " ++ typeName v ++ ascii " expected " ++ typeName e := by
  have h0 : ascii "Unexpected variant type " = [85, 110, 101, 120, 112, 101, 99, 116, 101, 100, 32, 118, 97, 114, 105, 97, 110, 116, 32, 116, 121, 112, 101, 32] := by decide +kernel
  have h1 : ascii " expected " = [32, 101, 120, 112, 101, 99, 116, 101, 100, 32] := by decide +kernel
  intros
  simp [what, h0, h1]
example : ∀ es v, what (.unexpectedOneOf es v) = ascii "Unexpected variant type " ++ typeName v ++ ascii " expected one of " ++ commas es := by
  have h0 : ascii "Unexpected variant type " = [85, 110, 101, 120, 112, 101, 99, 116, 101, 100, 32, 118, 97, 114, 105, 97, 110, 116, 32, 116, 121, 112, 101, 32] := by decide +kernel
  have h1 : ascii " expected one of " = [32, 101, 120, 112, 101, 99, 116, 101, 100, 32, 111, 110, 101, 32, 111, 102, 32] := by decide +kernel
  intros
  simp [what, h0, h1]
example : ∀ t s, what (.unableToConvert t s) = ascii "Unable to convert variant " ++ typeName t ++ ascii " to " ++ s := by
  have h0 : ascii "Unable to convert variant " = [85, 110, 97, 98, 108, 101, 32, 116, 111, 32, 99, 111, 110, 118, 101, 114, 116, 32, 118, 97, 114, 105, 97, 110, 116, 32] := by decide +kernel
  have h1 : ascii " to " = [32, 116, 111, 32] := by decide +kernel
  intros
  simp [what, h0, h1]
example : ∀ t, what (.notIndexable t) = ascii "Variant type " ++ typeName t ++ ascii " is not an indexable type." := by
  have h0 : ascii "Variant type " = [86, 97, 114, 105, 97, 110, 116, 32, 116, 121, 112, 101, 32] := by decide +kernel
  have h1 : ascii " is not an indexable type." = [32, 105, 115, 32, 110, 111, 116, 32, 97, 110, 32, 105, 110, 100, 101, 120, 97, 98, 108, 101, 32, 116, 121, 112, 101, 46] := by decide +kernel
  intros
  simp [what, h0, h1]
example : ∀ t, what (.notNumeric t) = ascii "Variant type " ++ typeName t ++ ascii " not a numeric type." := by
  have h0 : ascii "Variant type " = [86, 97, 114, 105, 97, 110, 116, 32, 116, 121, 112, 101, 32] := by decide +kernel
  have h1 : ascii " not a numeric type." = [32, 110, 111, 116, 32, 97, 32, 110, 117, 109, 101, 114, 105, 99, 32, 116, 121, 112, 101, 46] := by decide +kernel
  intros
  simp [what, h0, h1]
example : ∀ k, what (.key k) = ascii "Key \"" ++ k ++ ascii "\" not contained in map." := by
  have h0 : ascii "Key \"" = [75, 101, 121, 32, 34] := by decide +kernel
  have h1 : ascii "\" not contained in map." = [34, 32, 110, 111, 116, 32, 99, 111, 110, 116, 97, 105, 110, 101, 100, 32, 105, 110, 32, 109, 97, 112, 46] := by decide +kernel
  intros
  simp [what, h0, h1]
example : ∀ t, what (.badPath t) = ascii "Variant paths do not allow " ++ typeName t ++ ascii " as a path element." := by
  have h0 : ascii "Variant paths do not allow " = [86, 97, 114, 105, 97, 110, 116, 32, 112, 97, 116, 104, 115, 32, 100, 111, 32, 110, 111, 116, 32, 97, 108, 108, 111, 119, 32] := by decide +kernel
  have h1 : ascii " as a path element." = [32, 97, 115, 32, 97, 32, 112, 97, 116, 104, 32, 101, 108, 101, 109, 101, 110, 116, 46] := by decide +kernel
  intros
  simp [what, h0, h1]
example : ∀ t op, what (.invalidOperation t op) = ascii "Variant cannot perform operation " ++ op ++ ascii " on type " ++ typeName t := by
  have h0 : ascii "Variant cannot perform operation " = [86, 97, 114, 105, 97, 110, 116, 32, 99, 97, 110, 110, 111, 116, 32, 112, 101, 114, 102, 111, 114, 109, 32, 111, 112, 101, 114, 97, 116, 105, 111, 110, 32] := by decide +kernel
  have h1 : ascii " on type " = [32, 111, 110, 32, 116, 121, 112, 101, 32] := by decide +kernel
  intros
  simp [what, h0, h1]
example : what (.outOfRange) = ascii "Variant::List index out of range." := by
  have h0 : ascii "Variant::List index out of range." = [86, 97, 114, 105, 97, 110, 116, 58, 58, 76, 105, 115, 116, 32, 105, 110, 100, 101, 120, 32, 111, 117, 116, 32, 111, 102, 32, 114, 97, 110, 103, 101, 46] := by decide +kernel
  intros
  simp [what, h0]

/-! ## The names of types -/

theorem intDec_injective {a b : Int} (h : intDec a = intDec b) : a = b := by
  have dash : ∀ n : Nat, ∀ t, natDec n ≠ 45 :: t := by
    intro n t e
    exact absurd (natDec_all_digits n 45 (by rw [e]; simp)) (by decide)
  unfold intDec at h
  split at h <;> split at h
  · have := natDec_inj (List.cons.inj h).2
    omega
  · exact absurd h.symm (dash _ _)
  · exact absurd h (dash _ _)
  · have := natDec_inj h
    omega

theorem intDec_chars (i : Int) : ∀ c ∈ intDec i, c ≠ 32 ∧ c ≠ 44 := by
  have hd : ∀ c, isDigit c = true → c ≠ 32 ∧ c ≠ 44 := by
    rintro c hc
    constructor <;> rintro rfl <;> exact absurd hc (by decide)
  intro c hc
  unfold intDec at hc
  split at hc
  · rcases List.mem_cons.1 hc with rfl | hc
    · decide
    · exact hd c (natDec_all_digits _ c hc)
  · exact hd c (natDec_all_digits _ c hc)

theorem typeName_cases (t : Int) : (0 ≤ t ∧ t < 9) ∨ typeName t = [85, 110, 107, 110, 111, 119, 110, 40] ++ intDec t ++ [41] := by
  by_cases h : 0 ≤ t ∧ t < 9
  · exact .inl h
  · right
    unfold typeName
    iterate 9 rw [if_neg (by omega)]

theorem known (t : Int) (h0 : 0 ≤ t) (h9 : t < 9) : t = 0 ∨ t = 1 ∨ t = 2 ∨ t = 3 ∨ t = 4 ∨ t = 5 ∨ t = 6 ∨ t = 7 ∨ t = 8 := by omega

/-- The names of types have no blanks and no commas and are not empty. -/
theorem typeName_chars (t : Int) : typeName t ≠ [] ∧ ∀ c ∈ typeName t, c ≠ 32 ∧ c ≠ 44 := by
  rcases typeName_cases t with ⟨h0, h9⟩ | h
  · rcases known t h0 h9 with rfl | rfl | rfl | rfl | rfl | rfl | rfl | rfl | rfl <;> decide
  · rw [h]
    refine ⟨by simp, fun c hc => ?_⟩
    rcases List.mem_append.1 hc with hc | hc
    · rcases List.mem_append.1 hc with hc | hc
      · have : ∀ c ∈ ([85, 110, 107, 110, 111, 119, 110, 40] : Bytes), c ≠ 32 ∧ c ≠ 44 := by decide
        exact this c hc
      · exact intDec_chars t c hc
    · rw [List.mem_singleton] at hc; rw [hc]; decide

/-- C125.  Different types have different names. -/
theorem typeName_injective {a b : Int} (h : typeName a = typeName b) : a = b := by
  have far : ∀ a b : Int, 0 ≤ a → a < 9 → typeName b = [85, 110, 107, 110, 111, 119, 110, 40] ++ intDec b ++ [41] → typeName a ≠ typeName b := by
    intro a b h0 h9 hb e
    rw [hb] at e
    rcases known a h0 h9 with rfl | rfl | rfl | rfl | rfl | rfl | rfl | rfl | rfl <;> simp [typeName] at e
  rcases typeName_cases a with ⟨h0, h9⟩ | ha <;> rcases typeName_cases b with ⟨k0, k9⟩ | hb
  · rcases known a h0 h9 with rfl | rfl | rfl | rfl | rfl | rfl | rfl | rfl | rfl <;>
    rcases known b k0 k9 with rfl | rfl | rfl | rfl | rfl | rfl | rfl | rfl | rfl <;> first | rfl | exact absurd h (by decide)
  · exact absurd h (far a b h0 h9 hb)
  · exact absurd h.symm (far b a k0 k9 ha)
  · rw [ha, hb] at h
    exact intDec_injective (List.append_cancel_left (List.append_cancel_right h))

/-! ## The messages -/

theorem split_at {s : UInt8} {a b x y : Bytes} (ha : s ∉ a) (hb : s ∉ b) (h : a ++ s :: x = b ++ s :: y) : a = b ∧ x = y := by
  induction a generalizing b with
  | nil =>
    cases b with
    | nil => exact ⟨rfl, (List.cons.inj h).2⟩
    | cons c b => exact absurd (List.cons.inj h).1 (fun e => hb (by rw [e]; simp))
  | cons d a ih =>
    cases b with
    | nil => exact absurd (List.cons.inj h).1.symm (fun e => ha (by rw [e]; simp))
    | cons c b =>
      obtain ⟨e, h⟩ := List.cons.inj h
      obtain ⟨h1, h2⟩ := ih (fun m => ha (by simp [m])) (fun m => hb (by simp [m])) h
      exact ⟨by rw [e, h1], h2⟩

theorem noBlank (t : Int) : (32 : UInt8) ∉ typeName t := fun h => absurd rfl ((typeName_chars t).2 32 h).1
theorem noComma (t : Int) : (44 : UInt8) ∉ typeName t := fun h => absurd rfl ((typeName_chars t).2 44 h).2

theorem split_type {a b : Int} {x y : Bytes} (h : typeName a ++ 32 :: x = typeName b ++ 32 :: y) : a = b ∧ x = y := by
  obtain ⟨h1, h2⟩ := split_at (noBlank a) (noBlank b) h
  exact ⟨typeName_injective h1, h2⟩

/-- The last word. -/
theorem split_last {a b : Int} {x y : Bytes} (h : x ++ 32 :: typeName a = y ++ 32 :: typeName b) : a = b ∧ x = y := by
  have h' := congrArg List.reverse h
  simp only [List.reverse_append, List.reverse_cons, List.append_assoc, List.cons_append, List.nil_append] at h'
  obtain ⟨h1, h2⟩ := split_at (by simpa using noBlank a) (by simpa using noBlank b) h'
  exact ⟨typeName_injective (List.reverse_inj.1 h1), List.reverse_inj.1 h2⟩

theorem commas_injective : ∀ {a b : List Int}, commas a = commas b → a = b
  | [], [], _ => rfl
  | [], [t], h => absurd h.symm (typeName_chars t).1
  | [], t :: u :: ts, h => by simp [commas] at h
  | [t], [], h => absurd h (typeName_chars t).1
  | t :: u :: ts, [], h => by simp [commas] at h
  | [t], [u], h => by rw [typeName_injective h]
  | [t], u :: w :: us, h => by
    refine absurd (?_ : (44 : UInt8) ∈ typeName t) (noComma t)
    rw [show typeName t = commas [t] from rfl, h]
    simp [commas]
  | u :: w :: us, [t], h => by
    refine absurd (?_ : (44 : UInt8) ∈ typeName t) (noComma t)
    rw [show typeName t = commas [t] from rfl, ← h]
    simp [commas]
  | t :: t' :: ts, u :: u' :: us, h => by
    have h' : typeName t ++ 44 :: (32 :: commas (t' :: ts)) = typeName u ++ 44 :: (32 :: commas (u' :: us)) := h
    obtain ⟨h1, h2⟩ := split_at (noComma t) (noComma u) h'
    rw [typeName_injective h1, commas_injective (List.cons.inj h2).2]

/-- C125.  The text of an exception tells everything it was constructed from: which exception it is, the types, the
key, the operation. -/
theorem message_tells {r s : Report} (h : what r = what s) : r = s := by
  have one : ∀ (e : Int) (x : Bytes), typeName e ≠ [111, 110, 101] ++ 32 :: x := by
    intro e x h
    exact noBlank e (by rw [h]; simp)
  cases r <;> cases s <;> first | (refine absurd h ?_; simp [what]; done) | skip
  all_goals try simp only [what, List.cons_append, List.nil_append, List.cons.injEq, true_and] at h
  case outOfRange.outOfRange => rfl
  case unknownType.unknownType => exact congrArg _ (typeName_injective (List.append_cancel_right h))
  case unexpected.unexpected =>
    obtain ⟨e1, h'⟩ := split_type h
    simp only [List.cons.injEq, true_and] at h'
    rw [e1, typeName_injective h']
  case unexpected.unexpectedOneOf =>
    obtain ⟨e1, h'⟩ := split_type h
    simp only [List.cons.injEq, true_and] at h'
    exact absurd h' (one _ _)
  case unexpectedOneOf.unexpected =>
    obtain ⟨e1, h'⟩ := split_type h
    simp only [List.cons.injEq, true_and] at h'
    exact absurd h'.symm (one _ _)
  case unexpectedOneOf.unexpectedOneOf =>
    obtain ⟨e1, h'⟩ := split_type h
    simp only [List.cons.injEq, true_and] at h'
    rw [e1, commas_injective h']
  case unableToConvert.unableToConvert =>
    obtain ⟨e1, h'⟩ := split_type h
    simp only [List.cons.injEq, true_and] at h'
    rw [e1, h']
  case notIndexable.notIndexable => rw [(split_type h).1]
  case notNumeric.notNumeric => rw [(split_type h).1]
  case notIndexable.notNumeric => exact absurd (split_type h).2 (by decide)
  case notNumeric.notIndexable => exact absurd (split_type h).2 (by decide)
  case key.key => rw [List.append_cancel_right h]
  case badPath.badPath => rw [(split_type h).1]
  case invalidOperation.invalidOperation t op t' op' =>
    have e : ∀ (op : Bytes) (t : Int), op ++ 32 :: 111 :: 110 :: 32 :: 116 :: 121 :: 112 :: 101 :: 32 :: typeName t =
        (op ++ [32, 111, 110, 32, 116, 121, 112, 101]) ++ 32 :: typeName t := by simp
    rw [e, e] at h
    obtain ⟨e1, h'⟩ := split_last h
    rw [e1, List.append_cancel_right h']

/-! ## What a lookup says -/

theorem lookup_spec (v : Val) (e : PathElem) : getElemC v e = match lookup v e with
    | .ok x => .ok x
    | .error r => .throw r.cls := by
  cases e with
  | key k =>
    cases v <;> try rfl
    rename_i m
    simp only [getElemC, getKeyC, lookup]
    cases AMap.get m k <;> rfl
  | index i =>
    cases v <;> try rfl
    rename_i xs
    simp only [getElemC, getIndexC, lookup]
    cases xs[i.toNat]? <;> rfl

/-- This is the lookup of C123, with the exception in full. -/
theorem getPathR_spec (v : Val) (p : VPath) : getPath v p = match getPathR v p with
    | .ok x => .ok x
    | .error r => .throw r.cls := by
  induction p generalizing v with
  | nil => rfl
  | cons e p ih =>
    simp only [getPath, getPathR, lookup_spec]
    cases h : lookup v e with
    | ok c => exact ih c
    | error r => rfl

theorem getPathR_breaks {v c : Val} {p q r : VPath} {e : PathElem} (h : PathErr.Breaks v p q e r c) :
    ∃ x, lookup c e = .error x ∧ getPathR v p = .error x := by
  obtain ⟨rfl, h2, h3⟩ := h
  induction q generalizing v with
  | nil =>
    obtain rfl : v = c := Option.some.inj h2
    have hx : ∃ x, lookup v e = .error x := by
      cases e with
      | key k =>
        cases v <;> try exact ⟨_, rfl⟩
        rename_i m
        simp only [getElem?, getKey?] at h3
        exact ⟨.key k, by simp only [lookup, h3]⟩
      | index i =>
        cases v <;> try exact ⟨_, rfl⟩
        rename_i xs
        simp only [getElem?, getIndex?] at h3
        exact ⟨.outOfRange, by simp only [lookup, h3]⟩
    obtain ⟨x, hx⟩ := hx
    exact ⟨x, hx, by simp only [List.nil_append, getPathR, hx]⟩
  | cons a q ih =>
    cases ha : getElem? v a with
    | none => rw [getPath?_cons, ha] at h2; cases h2
    | some d =>
      rw [getPath?_cons, ha] at h2
      replace h2 : getPath? d q = some c := h2
      obtain ⟨x, h4, h5⟩ := ih h2
      refine ⟨x, h4, ?_⟩
      have hl : lookup v a = .ok d := by
        have hc := lookup_spec v a
        rw [getElemC_iff.2 ha] at hc
        cases hk : lookup v a with
        | ok y => rw [hk] at hc; cases hc; rfl
        | error y => rw [hk] at hc; cases hc
      simp only [List.cons_append, getPathR, hl]
      exact h5

/-- C125.  If a path breaks off at a missing key, the exception names that key: the first one of the path that is
missing. -/
theorem key_named {v c : Val} {p q r : VPath} {k : Bytes} (h : PathErr.Breaks v p q (.key k) r c)
    (hw : ¬ PathErr.Wrong c (.key k)) :
    ∃ x, getPathR v p = .error x ∧ what x = ascii "Key \"" ++ k ++ ascii "\" not contained in map." := by
  obtain ⟨x, h1, h2⟩ := getPathR_breaks h
  have hx : x = .key k := by
    cases c <;> simp_all [lookup, PathErr.Wrong, Val.ty, PathElem.containerTy]
    rename_i m
    split at h1 <;> simp_all
  refine ⟨x, h2, ?_⟩
  have a1 : ascii "Key \"" = [75, 101, 121, 32, 34] := by decide +kernel
  have a2 : ascii "\" not contained in map." = [34, 32, 110, 111, 116, 32, 99, 111, 110, 116, 97, 105, 110, 101, 100, 32, 105, 110, 32, 109, 97, 112, 46] := by decide +kernel
  rw [hx, a1, a2]
  simp [what]

/-- What a type is called. -/
def called : Ty → String
  | .null => "NullType"
  | .bool => "BoolType"
  | .int => "IntegerType"
  | .uint => "UnsignedType"
  | .flt => "FloatType"
  | .str => "StringType"
  | .list => "ListType"
  | .map => "MapType"
  | .blob => "BlobType"

/-- C125.  If it breaks off at a value of the wrong type, the exception names this type and the one that was
expected: a map for a key, a list for an index. -/
theorem type_named {v c : Val} {p q r : VPath} {e : PathElem} (h : PathErr.Breaks v p q e r c) (hw : PathErr.Wrong c e) :
    ∃ x, getPathR v p = .error x ∧
      what x = ascii "Unexpected variant type " ++ ascii (called c.ty) ++ ascii " expected " ++ ascii (called e.containerTy) := by
  obtain ⟨x, h1, h2⟩ := getPathR_breaks h
  have hx : x = .unexpected (tyNum e.containerTy) (tyNum c.ty) := by
    cases e <;> cases c <;> simp_all [lookup, PathErr.Wrong, Val.ty, PathElem.containerTy]
  have hn : ∀ t : Ty, typeName (tyNum t) = ascii (called t) := by
    intro t
    cases t <;> decide +kernel
  refine ⟨x, h2, ?_⟩
  have a1 : ascii "Unexpected variant type " = [85, 110, 101, 120, 112, 101, 99, 116, 101, 100, 32, 118, 97, 114, 105, 97, 110, 116, 32, 116, 121, 112, 101, 32] := by decide +kernel
  have a2 : ascii " expected " = [32, 101, 120, 112, 101, 99, 116, 101, 100, 32] := by decide +kernel
  rw [hx, a1, a2, ← hn, ← hn]
  simp [what]

/-- {"a": {"b": 1}} at a/c/d, and at a/b/d. -/
example :
    let v := Val.map [([97], .map [([98], .uint 1)])]
    (match getPathR v [.key [97], .key [99], .key [100]] with
      | .error x => what x
      | .ok _ => []) = ascii "Key \"c\" not contained in map." ∧
    (match getPathR v [.key [97], .key [98], .key [100]] with
      | .error x => what x
      | .ok _ => []) = ascii "Unexpected variant type UnsignedType expected MapType" := by decide +kernel

example : PathErr.Breaks (.map [([97], .map [([98], .uint 1)])]) [.key [97], .key [99], .key [100]] [.key [97]] (.key [99])
    [.key [100]] (.map [([98], .uint 1)]) ∧ ¬ PathErr.Wrong (.map [([98], .uint 1)]) (.key [99]) :=
  ⟨⟨rfl, rfl, rfl⟩, by decide⟩

end Verif.Msg
