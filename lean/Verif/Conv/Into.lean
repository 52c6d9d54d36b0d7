import Verif.Conv.Props
import Verif.Val.OpsLemmas
/-!
# Reading into variables (`GetInto`, `GetPathInto`; include/Variant/Variant.h 544-569)
-/

namespace Verif.Conv
open Verif

/-! ## The model -/

/-- `Variant(T)` of an integer type (include/Variant/Variant.h 103-108, src/Variant.cc 2212-2230): `char`, `short` and their relatives are
promoted to `int`. -/
def ofIntTy (t : IntTy) (n : Int) : Val :=
  match t with
  | .uint | .ulong | .ullong => .uint (UInt64.ofInt n)
  | _ => .int (Int64.ofInt n)

/-- `GetInto` without a default (include/Variant/Variant.h 547-550): the new value of the variable. -/
def getIntoC (f : Val → Out α) (v : Val) (k : Bytes) : Out α :=
  match getKeyC v k with
  | .ok x => f x
  | .throw e => .throw e
  | .ub => .ub

/-- `GetPathInto` without a default (include/Variant/Variant.h 552-555). -/
def getPathIntoC (f : Val → Out α) (v : Val) (q : VPath) : Out α :=
  match getPath v q with
  | .ok x => f x
  | .throw e => .throw e
  | .ub => .ub

/-- `GetPathInto` with a default (include/Variant/Variant.h 563-566): the default is made a variant (`g`) and cast like what is found. -/
def getPathInto (f : Val → Out α) (g : α → Val) (v : Val) (q : VPath) (d : α) : Out α := f (getPathDef v q (g d))

/-! ## The claim -/

/-- Specification: what the variable holds afterwards: what is at the path, cast to the type of the variable; if nothing is there, the default.
If the cast fails, so does the call. -/
def Reads (f : Val → Out α) (found : Option Val) (d : α) (r : Out α) : Prop :=
  (∀ x, found = some x → r = f x) ∧ (found = none → r = .ok d)

/-- Integers made a variant come back the same, for every integer type. -/
theorem int_comes_back (t : IntTy) (n : Int) (h : t.Has n) : castInt t (ofIntTy t n) = .ok n := by
  have key : ∀ v, ((∃ i : Int64, v = .int i ∧ n = i.toInt) ∨ ∃ u : UInt64, v = .uint u ∧ n = u.toNat) → castInt t v = .ok n :=
    fun v hv => by rw [cast_wraps_false t v n hv, wrap_has h]
  have hi : -2 ^ 63 ≤ n ∧ n < 2 ^ 63 → n = (Int64.ofInt n).toInt := fun ⟨h1, h2⟩ => (Int64.toInt_ofInt_of_le h1 h2).symm
  have hu : 0 ≤ n ∧ n < 2 ^ 64 → n = (UInt64.ofInt n).toNat := fun ⟨h1, h2⟩ => by
    have h3 : (UInt64.ofInt n).toNat = (n % 2 ^ 64).toNat := by
      simp [UInt64.ofInt]
      omega
    rw [h3]
    omega
  cases t <;> simp only [IntTy.Has] at h <;> first
    | exact key _ (.inl ⟨_, rfl, hi (by omega)⟩)
    | exact key _ (.inr ⟨_, rfl, hu (by omega)⟩)

/-- A vector of things that come back comes back. -/
theorem vector_comes_back {f : Val → Out α} {g : α → Val} (xs : List α) (h : ∀ x ∈ xs, f (g x) = .ok x) : castVector f (ofVector g xs) = .ok xs := by
  show castAll f (xs.map g) = _
  induction xs with
  | nil => rfl
  | cons x xs ih =>
    simp only [List.map_cons, castAll, h x (by simp), ih (fun y hy => h y (by simp [hy]))]
    rfl

/-- **C131.** `GetPathInto` with a default reads what is at the path, or the default: for every type whose values come back from variants. -/
theorem path_into {f : Val → Out α} {g : α → Val} {d : α} (h : f (g d) = .ok d) (v : Val) (q : VPath) :
    Reads f (getPath? v q) d (getPathInto f g v q d) := by
  unfold getPathInto getPathDef
  constructor
  · intro x hx
    rw [hx]
  · intro hx
    rw [hx]
    exact h

/-- **C131.** `GetInto` with a default reads what is at the key of a map, or the default. -/
theorem key_into (f : Val → Out α) (v : Val) (k : Bytes) (d : α) : Reads f (getElem? v (.key k)) d (getInto f v k d) := by
  unfold getInto getElem? getKey?
  cases v with
  | map m =>
    dsimp only
    constructor
    · intro x hx
      rw [hx]
    · intro hx
      rw [hx]
  | _ => exact ⟨nofun, fun _ => rfl⟩

/-- **C131.** For every integer type, and vectors of them, both functions read what is there, or exactly the default. -/
theorem integers_into (t : IntTy) (v : Val) (k : Bytes) (q : VPath) :
    (∀ n, t.Has n → Reads (castInt t) (getElem? v (.key k)) n (getInto (castInt t) v k n) ∧
      Reads (castInt t) (getPath? v q) n (getPathInto (castInt t) (ofIntTy t) v q n)) ∧
    ∀ ns, (∀ n ∈ ns, t.Has n) → Reads (castVector (castInt t)) (getPath? v q) ns (getPathInto (castVector (castInt t)) (ofVector (ofIntTy t)) v q ns) :=
  ⟨fun n h => ⟨key_into _ v k n, path_into (int_comes_back t n h) v q⟩,
    fun ns h => path_into (vector_comes_back ns fun n hn => int_comes_back t n (h n hn)) v q⟩

/-- **C131.** Without a default, what is there is read, and nothing there is an exception. -/
theorem into_checked (f : Val → Out α) (v : Val) (k : Bytes) (q : VPath) :
    (∀ x, getElem? v (.key k) = some x → getIntoC f v k = f x) ∧ (getElem? v (.key k) = none → ∃ e, getIntoC f v k = .throw e) ∧
    (∀ x, getPath? v q = some x → getPathIntoC f v q = f x) ∧ (getPath? v q = none → ∃ e, getPathIntoC f v q = .throw e) := by
  refine ⟨fun x hx => ?_, fun hx => ?_, fun x hx => ?_, fun hx => ?_⟩
  · have h : getKeyC v k = .ok x := getElemC_iff.2 hx
    simp only [getIntoC, h]
  · obtain ⟨e, h⟩ := getElemC_none hx
    have h : getKeyC v k = .throw e := h
    exact ⟨e, by simp only [getIntoC, h]⟩
  · simp only [getPathIntoC, getPath_some hx]
  · obtain ⟨e, h⟩ := getPath_none hx
    exact ⟨e, by simp only [getPathIntoC, h]⟩

/-! ## Cases -/

/-- A `signed char`, which is cast by way of `AsUnsigned`, with the default -5. -/
example : getPathInto (castInt .schar) (ofIntTy .schar) (.map [([97], .list [.int 7])]) [.key [97], .index 3] (-5) = .ok (-5) ∧
    getPathInto (castInt .schar) (ofIntTy .schar) (.map [([97], .list [.int 7])]) [.key [97], .index 0] (-5) = .ok 7 ∧
    IntTy.schar.Has (-5) := by decide

/-- A key that is not there is the default, a value that cannot be cast an exception. -/
example : getInto (castInt .int) (.map [([97], .list [])]) [98] 3 = .ok 3 ∧ getInto (castInt .int) (.map [([97], .list [])]) [97] 3 = .throw .unableToConvert := by
  decide

/-- A vector of `unsigned long long` above 2^63 as default. -/
example : getPathInto (castVector (castInt .ullong)) (ofVector (ofIntTy .ullong)) .null [.key [97]] [2 ^ 64 - 1, 3] = .ok [2 ^ 64 - 1, 3] ∧
    ∀ n ∈ [(2 : Int) ^ 64 - 1, 3], IntTy.ullong.Has n := by decide

/-- Without a default. -/
example : getPathIntoC (castInt .short) (.map [([97], .list [.int 7])]) [.key [97], .index 0] = .ok 7 ∧
    getPathIntoC (castInt .short) (.map [([97], .list [.int 7])]) [.key [97], .index 1] = .throw .outOfRange ∧
    getIntoC (castInt .short) (.map [([97], .int 7)]) [97] = .ok 7 ∧ getIntoC (castInt .short) (.map [([97], .int 7)]) [98] = .throw .key := by decide

end Verif.Conv
