import Verif.Base.Outcome
/-!
# Decimal text

`operator<<(ostream&, unsigned)` in the default (decimal, "C" locale) format and the number
extraction `operator>>(istream&, unsigned long long&)`.
-/

namespace Verif

/-- ASCII digit of a number below ten. -/
def digitByte (d : Nat) : UInt8 := UInt8.ofNat (48 + d)

/-- Decimal digits, most significant first; what `oss << n` prints for an unsigned `n`. -/
def natDec (n : Nat) : Bytes :=
  if n < 10 then [digitByte n] else natDec (n / 10) ++ [digitByte (n % 10)]
decreasing_by omega

def isDigit (b : UInt8) : Bool := 48 ≤ b && b ≤ 57

/-- `isspace` in the "C" locale. -/
def isSpace (b : UInt8) : Bool := b == 32 || (9 ≤ b && b ≤ 13)

/-- Value of a digit sequence read left to right, starting from accumulator `acc`. -/
def decVal (acc : Nat) : Bytes → Nat
  | [] => acc
  | b :: bs => decVal (acc * 10 + (b.toNat - 48)) bs

/-- Longest digit prefix and the remaining text. -/
def spanDigits : Bytes → Bytes × Bytes
  | [] => ([], [])
  | b :: bs => if isDigit b then ((b :: (spanDigits bs).1), (spanDigits bs).2) else ([], b :: bs)

theorem digitByte_toNat {d : Nat} (h : d < 10) : (digitByte d).toNat = 48 + d := by
  simp [digitByte, UInt8.toNat_ofNat']; omega

theorem isDigit_digitByte {d : Nat} (h : d < 10) : isDigit (digitByte d) = true := by
  have := digitByte_toNat h
  simp [isDigit, UInt8.le_iff_toNat_le, this]; omega

theorem decVal_append (acc : Nat) (a b : Bytes) :
    decVal acc (a ++ b) = decVal (decVal acc a) b := by
  induction a generalizing acc with
  | nil => rfl
  | cons x xs ih => exact ih _

theorem natDec_lt {n : Nat} (h : n < 10) : natDec n = [digitByte n] := by
  rw [natDec, if_pos h]

theorem natDec_ge {n : Nat} (h : ¬ n < 10) :
    natDec n = natDec (n / 10) ++ [digitByte (n % 10)] := by
  rw [natDec, if_neg h]

theorem decVal_digit (acc d : Nat) (h : d < 10) : decVal acc [digitByte d] = acc * 10 + d := by
  have := digitByte_toNat h
  show acc * 10 + ((digitByte d).toNat - 48) = _
  omega

theorem decVal_natDec_acc (n : Nat) : decVal 0 (natDec n) = n := by
  induction n using natDec.induct with
  | case1 n h => rw [natDec_lt h, decVal_digit _ _ h]; omega
  | case2 n h ih =>
    rw [natDec_ge h, decVal_append, ih, decVal_digit _ _ (Nat.mod_lt n (by decide))]; omega

theorem natDec_all_digits (n : Nat) : ∀ b ∈ natDec n, isDigit b = true := by
  induction n using natDec.induct with
  | case1 n h => rw [natDec_lt h]; simp [isDigit_digitByte h]
  | case2 n h ih =>
    rw [natDec_ge h]
    intro b hb
    rcases List.mem_append.1 hb with hb | hb
    · exact ih b hb
    · simp at hb; subst hb; exact isDigit_digitByte (Nat.mod_lt n (by decide))

theorem natDec_ne_nil (n : Nat) : natDec n ≠ [] := by
  rw [natDec]; split <;> simp

theorem spanDigits_append {a : Bytes} (ha : ∀ b ∈ a, isDigit b = true) (r : Bytes)
    (hr : ∀ b, r.head? = some b → isDigit b = false) : spanDigits (a ++ r) = (a, r) := by
  induction a with
  | nil =>
    cases r with
    | nil => rfl
    | cons b bs => simp [spanDigits, hr b rfl]
  | cons x xs ih =>
    have hx := ha x (by simp)
    have := ih (fun b hb => ha b (by simp [hb]))
    simp [spanDigits, hx, this]

theorem spanDigits_all {a : Bytes} (ha : ∀ b ∈ a, isDigit b = true) : spanDigits a = (a, []) := by
  simpa using spanDigits_append ha [] (by simp)

/-- The first digit of a multi-digit number is not `'0'`. -/
theorem natDec_head (n : Nat) (hn : 0 < n) : ∃ b bs, natDec n = b :: bs ∧ isDigit b = true ∧ b ≠ 48 := by
  induction n using natDec.induct with
  | case1 n h =>
    refine ⟨digitByte n, [], natDec_lt h, isDigit_digitByte h, ?_⟩
    intro h0
    have := congrArg UInt8.toNat h0
    rw [digitByte_toNat h] at this
    simp at this; omega
  | case2 n h ih =>
    obtain ⟨b, bs, e, hb, h0⟩ := ih (by omega)
    exact ⟨b, bs ++ [digitByte (n % 10)], by rw [natDec_ge h, e]; rfl, hb, h0⟩

/-- Drop leading white space (`std::ws`, done by every formatted extraction). -/
def skipSpace : Bytes → Bytes
  | [] => []
  | b :: bs => if isSpace b then skipSpace bs else b :: bs

/-- `istringstream(s) >> (unsigned long long &)i` of libstdc++ (`num_get::_M_extract_int`,
base 10, "C" locale): leading white space, optional sign, digits; no digit or overflow of
64 bits is a failure (`none`); a minus sign negates modulo 2^64.  Text after the digits is
left unread. -/
def extractU64 (s : Bytes) : Option Nat :=
  let t := skipSpace s
  let (neg, u) := match t with
    | 45 :: u => (true, u)     -- '-'
    | 43 :: u => (false, u)    -- '+'
    | u => (false, u)
  let (ds, _) := spanDigits u
  if ds = [] then none
  else
    let v := decVal 0 ds
    if v < 2 ^ 64 then some (if neg then (2 ^ 64 - v) % 2 ^ 64 else v) else none

theorem isSpace_of_isDigit {b : UInt8} (h : isDigit b = true) : isSpace b = false := by
  simp [isDigit, isSpace, UInt8.le_iff_toNat_le, ← UInt8.toNat_inj] at *; omega

theorem extractU64_natDec (n : Nat) (h : n < 2 ^ 64) : extractU64 (natDec n) = some n := by
  have hd := natDec_all_digits n
  have hne := natDec_ne_nil n
  have hv := decVal_natDec_acc n
  have hs := spanDigits_all hd
  generalize natDec n = l at *
  cases l with
  | nil => contradiction
  | cons b bs =>
    have hb := hd b (by simp)
    have h1 : skipSpace (b :: bs) = b :: bs := by simp [skipSpace, isSpace_of_isDigit hb]
    have h45 : b ≠ 45 := by rintro rfl; revert hb; decide
    have h43 : b ≠ 43 := by rintro rfl; revert hb; decide
    unfold extractU64
    simp only [h1]
    split
    · rename_i h2; simp at h2; exact absurd h2.1 h45
    · rename_i h2; simp at h2; exact absurd h2.1 h43
    · simp only [hs]; simp [hv, h]

end Verif
