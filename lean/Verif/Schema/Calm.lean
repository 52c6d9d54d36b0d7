import Verif.Schema.MetaSpec
import Verif.Schema.AcceptObject
import Verif.Schema.Total
/-!
# Validating with schemas the validator understands
-/

namespace Verif.Schema
open Verif

/-- Accepted, or stopped with a validation error; or, if `lim`, stopped at the recursion limit. -/
def Calm (lim : Bool) (r : M) : Prop :=
  r = some (.go false) ∨ r = some (.stop true false) ∨ (lim = true ∧ r = some (.stop false true))

variable {lim : Bool}

theorem calm_ok : Calm lim ok := .inl rfl
theorem calm_err : Calm lim err := .inr (.inl rfl)

theorem calm_seq {a b : M} (ha : Calm lim a) (hb : Calm lim b) : Calm lim (seq a b) := by
  rcases ha with rfl | rfl | ⟨h, rfl⟩
  · rcases hb with rfl | rfl | ⟨h, rfl⟩
    · exact .inl rfl
    · exact .inr (.inl rfl)
    · exact .inr (.inr ⟨h, rfl⟩)
  · exact .inr (.inl rfl)
  · exact .inr (.inr ⟨h, rfl⟩)

theorem calm_each {α : Type} {f : α → M} {xs : List α} (h : ∀ x ∈ xs, Calm lim (f x)) : Calm lim (each f xs) := by
  induction xs with
  | nil => exact calm_ok
  | cons x xs ih => exact calm_seq (h x (.head _)) (ih fun y hy => h y (.tail _ hy))

theorem calm_kw {m : List (Bytes × Val)} {k : Bytes} {f : Val → M} (h : ∀ v, has m k v → Calm lim (f v)) : Calm lim (kw m k f) := by
  unfold kw; split
  · exact calm_ok
  · exact h _ ‹_›

theorem calm_ite {c : Prop} [Decidable c] {a b : M} (ha : Calm lim a) (hb : Calm lim b) : Calm lim (if c then a else b) := by
  split <;> assumption

theorem calm_withOut {α : Type} {o : Out α} {f : α → M} (h : ∃ a, o = .ok a ∧ Calm lim (f a)) : Calm lim (withOut o f) := by
  obtain ⟨a, rfl, h⟩ := h
  exact h

/-- A positive number. -/
theorem positive_number {p : Nat} (hp : 64 ≤ p) {q : Val} (h : IsPositive q) : isNumber q = true ∧ 0 < cmp p q (.int 0) := by
  rcases h with ⟨n, hn, h0⟩ | ⟨b, rfl, hb⟩
  · refine ⟨(value_numLD hp hn).2, ?_⟩
    rw [cmp_value hp hn zero_value]
    split <;> try split
    all_goals omega
  · refine ⟨rfl, ?_⟩
    have e0 : numLD p (.int 0) = some (.fin 0) := (value_numLD hp zero_value).1
    have e : cmp p (.flt b) (.int 0) = ldCompare (LD.ofDouble b) (.fin 0) := by
      simp only [cmp, e0]
      rfl
    rw [e, hb]
    decide

theorem rem_ok {p : Nat} (hp : 64 ≤ p) {d q : Val} (hd : isNumber d = true) (hq : IsPositive q) (h1 : d.ty ≠ .flt) (h2 : q.ty ≠ .flt) :
    ∃ r, arith (fun _ v _ => v) .rem d q = .ok r := by
  obtain ⟨n, hn, h0⟩ : ∃ n, value q = some n ∧ 0 < n := by
    rcases hq with h | ⟨b, rfl, _⟩
    · exact h
    · exact absurd rfl h2
  have pos : ∀ k : Int, 0 < k * 2 ^ 1074 → 0 < k := fun k h =>
    Int.lt_of_mul_lt_mul_right (a := 2 ^ 1074) (by rw [Int.zero_mul]; exact h) (Int.le_of_lt (Int.pow_pos (by decide)))
  have hu : ∀ a b : UInt64, b ≠ 0 → Op.rem.unsigned a b = .ok (a % b) := fun a b h => if_neg h
  cases q with
  | int j =>
    simp only [value, Option.some.injEq] at hn
    subst hn
    have hj := pos _ h0
    have hz : j ≠ 0 := by rintro rfl; exact absurd hj (by decide)
    have hz' : j.toUInt64 ≠ 0 := by
      intro h
      apply hz
      have : j.toUInt64.toInt64 = 0 := by rw [h]; rfl
      simpa using this
    cases d with
    | int i =>
      refine ⟨.int (Int64.ofInt (Op.rem.exact i.toInt j.toInt)), ?_⟩
      show (Val.int ·) <$> Op.rem.signed i j = _
      simp only [Op.signed]
      rw [if_neg hz, if_neg (by omega)]
      rfl
    | uint u => exact ⟨_, congrArg ((Val.uint ·) <$> ·) (hu u j.toUInt64 hz')⟩
    | flt => exact absurd rfl h1
    | _ => cases hd
  | uint w =>
    simp only [value, Option.some.injEq] at hn
    subst hn
    have hj := pos _ h0
    have hz : w ≠ 0 := by rintro rfl; exact absurd hj (by decide)
    cases d with
    | int i => exact ⟨_, congrArg ((Val.uint ·) <$> ·) (hu i.toUInt64 w hz)⟩
    | uint u => exact ⟨_, congrArg ((Val.uint ·) <$> ·) (hu u w hz)⟩
    | flt => exact absurd rfl h1
    | _ => cases hd
  | flt b => exact absurd rfl h2
  | _ => simp [value] at hn

variable {E : Env} {S : Val → Prop} {rec : Val → Val → M} {m : List (Bytes × Val)}

section
variable (hS : ∀ t d, S t → Calm lim (rec t d))
include hS

theorem calm_oneOf {d : Val} : ∀ {ss : List Val} (n : Nat), (∀ s ∈ ss, S s) → Calm lim (oneOfLoop rec d n ss)
  | [], n, _ => by unfold oneOfLoop; exact calm_ite calm_err calm_ok
  | s :: ss, n, h => by
    have ih := fun n => calm_oneOf (d := d) n fun t ht => h t (.tail _ ht)
    unfold oneOfLoop
    rcases hS s d (h s (.head _)) with e | e | ⟨_, e⟩ <;> rw [e]
    · exact calm_ite calm_err (ih _)
    · exact ih _
    · exact ih _

theorem calm_anyOf {d : Val} : ∀ {ss : List Val}, (∀ s ∈ ss, S s) → Calm lim (anyOfLoop rec d ss)
  | [], _ => calm_err
  | s :: ss, h => by
    have ih := calm_anyOf (d := d) fun t ht => h t (.tail _ ht)
    unfold anyOfLoop
    rcases hS s d (h s (.head _)) with e | e | ⟨_, e⟩ <;> rw [e]
    · exact calm_ok
    · exact ih
    · exact ih

theorem calm_extra {k : Bytes} {x : Val} (h : ∀ a, has m k a → IsFlag a ∨ S a) : Calm lim (extra rec m k x) := by
  refine calm_kw fun a ha => ?_
  rcases h a ha with ⟨b, rfl⟩ | h
  · cases b
    · exact calm_err
    · exact calm_ok
  · cases a
    case bool b => cases b; exact calm_err; exact calm_ok
    all_goals exact hS _ x h

theorem calm_items (h : ∀ a, has m kAdditionalItems a → IsFlag a ∨ S a) : ∀ {ss xs : List Val}, (∀ s ∈ ss, S s) → Calm lim (itemsLoop rec m ss xs)
  | ss, [], _ => by cases ss <;> exact calm_ok
  | s :: ss, x :: xs, hs => calm_seq (hS _ _ (hs s (.head _))) (calm_items h fun t ht => hs t (.tail _ ht))
  | [], x :: xs, hs => calm_seq (calm_extra hS h) (calm_items h hs)

theorem calm_combinations (U : Understood E S m) (d : Val) : Calm lim (vCombinations rec m d) := by
  refine calm_seq (calm_kw fun v hv => ?_) (calm_seq (calm_kw fun v hv => ?_) (calm_seq (calm_kw fun v hv => ?_) (calm_kw fun v hv => ?_)))
  · obtain ⟨ss, rfl, h⟩ := U.combinations _ v (by simp) hv
    exact calm_each fun s hs => hS _ _ (h s hs)
  · obtain ⟨ss, rfl, h⟩ := U.combinations _ v (by simp) hv
    exact calm_anyOf hS h
  · obtain ⟨ss, rfl, h⟩ := U.combinations _ v (by simp) hv
    exact calm_oneOf hS 0 h
  · rcases hS v d (U.not v hv) with e | e | ⟨_, e⟩ <;> rw [e]
    · exact calm_err
    · exact calm_ok
    · exact calm_ok

omit hS in
theorem calm_size (U : Understood E S m) {k : Bytes} (hk : k ∈ [kMinItems, kMaxItems, kMinLength, kMaxLength, kMinProperties, kMaxProperties])
    (bad : UInt64 → Bool) : Calm lim (sizeLimit m k bad) := by
  refine calm_kw fun l hl => ?_
  obtain ⟨hn, u, hu⟩ := U.sizes k l hk hl
  rw [if_pos hn]
  exact calm_withOut ⟨u, hu, calm_ite calm_err calm_ok⟩

theorem calm_object (U : Understood E S m) (d : Val) : Calm lim (vObject E rec m d) := by
  cases d
  case map dm =>
    refine calm_seq (calm_seq (calm_size U (by simp) _) (calm_size U (by simp) _)) (calm_seq ?_ (calm_seq ?_ ?_))
    · refine calm_kw fun r hr => ?_
      obtain ⟨ks, rfl, h⟩ := U.required r hr
      refine calm_each fun k hk => ?_
      obtain ⟨t, rfl⟩ := h k hk
      exact calm_ite calm_ok calm_err
    · have hpat : (patternsOf E m).2 = true ∧ ∀ p ∈ (patternsOf E m).1, S p.2 := by
        unfold patternsOf
        split
        · exact ⟨rfl, nofun⟩
        · rename_i ps hp
          obtain ⟨ps', e, h⟩ := U.patterns _ hp
          cases e
          refine ⟨(compile_all E ps).2 fun k s hks => (h k s hks).2, fun p hp => ?_⟩
          obtain ⟨f, s⟩ := p
          obtain ⟨k, h1, h2⟩ := (compile_mem E ps f s).1 hp
          exact (h _ _ h1).1
        · rename_i v hv hp
          obtain ⟨ps', e, _⟩ := U.patterns _ hp
          exact absurd e (hv ps')
      have hprop : (propertiesOf m).2 = true ∧ ∀ k s, AMap.get (propertiesOf m).1 k = some s → S s := by
        unfold propertiesOf
        split
        · exact ⟨rfl, nofun⟩
        · rename_i ps hp
          obtain ⟨ps', e, h⟩ := U.properties _ hp
          cases e
          exact ⟨rfl, fun k s hk => h k s (get_mem hk)⟩
        · rename_i v hv hp
          obtain ⟨ps', e, _⟩ := U.properties _ hp
          exact absurd e (hv ps')
      unfold vProperties
      rw [hpat.1, hprop.1]
      refine calm_seq calm_ok (calm_seq calm_ok (calm_each fun p hp => ?_))
      refine calm_seq ?_ (calm_seq (calm_each fun q hq => hS _ _ (hpat.2 q (List.mem_filter.1 hq).1)) (calm_ite (calm_extra hS fun a ha => U.additional _ a (by simp) ha) calm_ok))
      split
      · exact hS _ _ (hprop.2 _ _ ‹_›)
      · exact calm_ok
    · refine calm_kw fun v hv => ?_
      obtain ⟨ds, rfl, h⟩ := U.dependencies v hv
      refine calm_each fun p hp => ?_
      obtain ⟨k, dep⟩ := p
      refine calm_ite ?_ calm_ok
      rcases h k dep hp with ⟨h1, h2⟩ | ⟨ks, rfl, h⟩
      · cases dep <;> simp [Val.ty] at h2
        exact hS _ _ h1
      · refine calm_each fun q hq => ?_
        obtain ⟨t, rfl⟩ := h q hq
        exact calm_withOut ⟨t, rfl, calm_ite calm_ok calm_err⟩
  all_goals exact calm_ok

theorem calm_array (U : Understood E S m) (d : Val) : Calm lim (vArray E rec m d) := by
  cases d
  case list xs =>
    refine calm_seq (calm_seq (calm_size U (by simp) _) (calm_size U (by simp) _)) (calm_seq (calm_kw fun u hu => ?_) (calm_kw fun s hs => ?_))
    · obtain ⟨b, rfl⟩ := U.unique u hu
      have hl : ∀ xs, Calm lim (uniqueLoop E xs) := by
        intro xs
        induction xs with
        | nil => exact calm_ok
        | cons x xs ih => exact calm_seq (calm_each fun y _ => calm_ite calm_err calm_ok) ih
      cases b
      · exact calm_ok
      · exact hl xs
    · rcases U.items s hs with ⟨h1, h2⟩ | ⟨ss, rfl, h⟩
      · cases s
        case list => exact absurd rfl h2
        all_goals exact calm_each fun x _ => hS _ _ h1
      · exact calm_items hS (fun a ha => U.additional _ a (by simp) ha) h
  all_goals exact calm_ok

end

theorem calm_matchRe {re s : Bytes} (h : ∃ g, E.regex re = some g) : Calm lim (matchRe E re s) := by
  obtain ⟨g, h⟩ := h
  unfold matchRe; rw [h]
  exact calm_ite calm_ok calm_err

theorem calm_string (U : Understood E S m) (d : Val) : Calm lim (vString E m d) := by
  cases d
  case str s =>
    refine calm_seq (calm_seq (calm_size U (by simp) _) (calm_size U (by simp) _)) (calm_seq (calm_kw fun p hp => ?_) (calm_kw fun f hf => ?_))
    · obtain ⟨t, g, rfl, hg⟩ := U.pattern p hp
      exact calm_matchRe ⟨g, hg⟩
    · cases f
      case str f =>
        refine calm_ite (calm_ite calm_ok calm_err) ?_
        by_cases h1 : f = wDateTime
        · subst h1
          rw [if_pos rfl]
          exact calm_ite calm_ok (calm_matchRe (U.formats _ _ (by simp) hf))
        rw [if_neg h1]
        by_cases h2 : f = wDate
        · subst h2
          rw [if_pos rfl]
          exact calm_ite calm_ok (calm_matchRe (U.formats _ _ (by simp) hf))
        rw [if_neg h2]
        by_cases h3 : f = wTime
        · subst h3
          rw [if_pos rfl]
          exact calm_ite calm_ok (calm_matchRe (U.formats _ _ (by simp) hf))
        rw [if_neg h3]
        exact calm_ok
      all_goals exact calm_ok
  all_goals exact calm_ok

theorem calm_numeric (hp : 64 ≤ E.p) (U : Understood E S m) (d : Val) : Calm lim (vNumeric E m d) := by
  unfold vNumeric
  by_cases hd : isNumber d = true
  · rw [if_pos hd]
    refine calm_seq ?_ (calm_seq (calm_kw fun l hl => ?_) (calm_kw fun l hl => ?_))
    · unfold vMultipleOf
      split
      · exact calm_ok
      · rename_i q hq
        have hq : IsPositive q := by
          refine U.multipleOf q ?_
          cases h : AMap.get m kMultipleOf with
          | none => rw [h] at hq; exact .inr ⟨h, hq⟩
          | some q' => rw [h] at hq; cases hq; exact .inl h
        obtain ⟨h1, h2⟩ := positive_number hp hq
        rw [if_neg (by rw [h1]; simp; omega)]
        by_cases hf : d.ty = .flt ∨ q.ty = .flt
        · rw [if_pos hf]
          split
          · exact calm_ite calm_err calm_ok
          · exact calm_ok
        · rw [if_neg hf]
          obtain ⟨r, hr⟩ := rem_ok hp hd hq (fun h => hf (.inl h)) (fun h => hf (.inr h))
          exact calm_withOut ⟨r, hr, calm_ite calm_ok calm_err⟩
    · rw [if_pos (U.limits _ l (by simp) hl)]
      refine calm_ite calm_err (calm_kw fun x hx => ?_)
      obtain ⟨b, rfl⟩ := U.exclusive _ x (by simp) hx
      exact calm_withOut ⟨b, rfl, calm_ite calm_err calm_ok⟩
    · rw [if_pos (U.limits _ l (by simp) hl)]
      refine calm_ite calm_err (calm_kw fun x hx => ?_)
      obtain ⟨b, rfl⟩ := U.exclusive _ x (by simp) hx
      exact calm_withOut ⟨b, rfl, calm_ite calm_err calm_ok⟩
  · rw [if_neg hd]; exact calm_ok

theorem typeName_known {d w : Val} (h : IsTypeName w) : ∃ b, hasType E d w = some b := by
  obtain ⟨w, rfl, h⟩ := h
  simp only [List.mem_cons, List.not_mem_nil, or_false] at h
  rcases h with rfl | rfl | rfl | rfl | rfl | rfl | rfl <;> exact ⟨_, rfl⟩

theorem calm_typeLoop {d : Val} : ∀ {ws : List Val}, (∀ w ∈ ws, IsTypeName w) → Calm lim (typeLoop E d ws)
  | [], _ => calm_err
  | w :: ws, h => by
    have ih := calm_typeLoop (d := d) fun t ht => h t (.tail _ ht)
    unfold typeLoop
    obtain ⟨b, e⟩ := typeName_known (E := E) (d := d) (h w (.head _))
    rw [e]
    cases b
    · exact ih
    · exact calm_ok

theorem calm_body (hp : 64 ≤ E.p) (hS : ∀ t d, S t → Calm lim (rec t d)) (U : Understood E S m) (d : Val) : Calm lim (body E rec m d) := by
  refine calm_seq ?_ (calm_seq ?_ (calm_seq ?_ (calm_seq (calm_numeric hp U d) (calm_seq (calm_string U d)
    (calm_seq (calm_array hS U d) (calm_seq (calm_object hS U d) (calm_combinations hS U d)))))))
  · refine calm_kw fun r hr => ?_
    cases r
    case str r =>
      obtain ⟨t, h1, h2⟩ := U.ref r hr
      exact calm_withOut ⟨t, h1, hS _ _ h2⟩
    all_goals exact calm_ok
  · refine calm_kw fun t ht => ?_
    rcases U.type t ht with h | ⟨ws, rfl, h⟩
    · obtain ⟨w, rfl, hw⟩ := h
      exact calm_typeLoop (ws := [.str w]) fun x hx => by rw [List.mem_singleton.1 hx]; exact ⟨w, rfl, hw⟩
    · exact calm_typeLoop h
  · refine calm_kw fun v hv => ?_
    obtain ⟨vs, rfl⟩ := U.enum v hv
    exact calm_ite calm_ok calm_err

/-- Schemas that the validator understands and that refer to such schemas: nothing but validation errors and the
recursion limit are reported, for every value. -/
theorem family_calm (hp : 64 ≤ E.p) {S : Val → Prop} (hS : ∀ t, S t → ∃ m, t = .map m ∧ Understood E S m) :
    ∀ (fuel depth : Nat) (t d : Val), recursionLimit + 1 ≤ fuel + depth → depth ≤ recursionLimit → S t → Calm true (validate E fuel depth t d)
  | 0, depth, t, d, hf, hd, h => by omega
  | fuel + 1, depth, t, d, hf, hd, h => by
    unfold validate
    by_cases hl : depth + 1 > recursionLimit
    · rw [if_pos hl]; exact .inr (.inr ⟨rfl, rfl⟩)
    · rw [if_neg hl]
      obtain ⟨m, rfl, U⟩ := hS t h
      exact calm_body hp (fun t d ht => family_calm hp hS fuel (depth + 1) t d (by omega) (by omega) ht) U d

/-- If the schemas are nested `n` deep, not even the recursion limit is reached. -/
theorem ranked_calm (hp : 64 ≤ E.p) {S : Nat → Val → Prop} (h0 : ∀ t, ¬ S 0 t) (hS : ∀ n t, S (n + 1) t → ∃ m, t = .map m ∧ Understood E (S n) m) :
    ∀ (n fuel depth : Nat) (t d : Val), n ≤ fuel → depth + n ≤ recursionLimit → S n t → Calm false (validate E fuel depth t d)
  | 0, _, _, t, _, _, _, h => absurd h (h0 t)
  | n + 1, 0, depth, t, d, hf, hd, h => by omega
  | n + 1, fuel + 1, depth, t, d, hf, hd, h => by
    unfold validate
    rw [if_neg (by omega)]
    obtain ⟨m, rfl, U⟩ := hS n t h
    exact calm_body hp (fun t d ht => ranked_calm hp h0 hS n fuel (depth + 1) t d (by omega) (by omega) ht) U d

end Verif.Schema
