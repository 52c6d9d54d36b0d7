import Verif.Schema.Spec
import Verif.Val.CompareProps
/-!
# Each keyword accepts exactly what its specification says
-/

namespace Verif.Schema

/-- Accepted: returned without recording anything. -/
abbrev Acc (r : M) : Prop := r = some (.go false)

theorem verdict_accept {r : M} : verdict r = .accept ↔ Acc r := by
  unfold verdict Acc; split <;> simp_all

theorem verdict_reject {r : M} : verdict r = .reject ↔ r = some (.go true) ∨ ∃ e s, r = some (.stop e s) := by
  unfold verdict; split <;> simp_all

@[simp] theorem acc_ok : Acc ok ↔ True := by simp [Acc, ok]
@[simp] theorem acc_err : Acc err ↔ False := by simp [Acc, err]
@[simp] theorem acc_serr : Acc serr ↔ False := by simp [Acc, serr]

@[simp] theorem acc_seq (a b : M) : Acc (seq a b) ↔ Acc a ∧ Acc b := by
  unfold seq Acc
  split
  · split <;> simp_all
  · rename_i h; constructor
    · intro h'; exact absurd h' (by simpa using h false)
    · rintro ⟨h', _⟩; exact absurd h' (by simpa using h false)

@[simp] theorem acc_each {α : Type} (f : α → M) (xs : List α) : Acc (each f xs) ↔ ∀ x ∈ xs, Acc (f x) := by
  induction xs with
  | nil => simp [each]
  | cons x xs ih => simp [each, ih]

@[simp] theorem acc_withOut {α : Type} (o : Out α) (f : α → M) :
    Acc (withOut o f) ↔ ∃ a, o = .ok a ∧ Acc (f a) := by
  cases o <;> simp [withOut, Acc]

@[simp] theorem acc_kw (m : List (Bytes × Val)) (k : Bytes) (f : Val → M) :
    Acc (kw m k f) ↔ ∀ v, has m k v → Acc (f v) := by
  unfold kw has; split <;> simp_all

@[simp] theorem acc_ite (c : Prop) [Decidable c] (a b : M) :
    Acc (if c then a else b) ↔ (c → Acc a) ∧ (¬ c → Acc b) := by
  split <;> simp_all

theorem acc_go (b : Bool) : Acc (some (.go b)) ↔ b = false := by simp [Acc]

section
variable (rec : Val → Val → M)

/-- The verdicts of the subschemas. -/
abbrev sub : Val → Val → Vd := fun s d => verdict (rec s d)

theorem acc_oneOfLoop1 (d : Val) (ss : List Val) :
    Acc (oneOfLoop rec d 1 ss) ↔ ∀ x ∈ ss, sub rec x d = .reject := by
  induction ss with
  | nil => simp [oneOfLoop]
  | cons s ss ih =>
    simp only [oneOfLoop, List.forall_mem_cons, sub]
    simp only [sub] at ih
    generalize rec s d = r
    rcases r with _ | r
    · simp [verdict, Acc]
    · cases r with
      | go b => cases b <;> simp [verdict, ih]
      | stop => simp [verdict, ih]
      | exn => simp [verdict, Acc]
      | ub => simp [verdict, Acc]

theorem acc_oneOfLoop (d : Val) (ss : List Val) : Acc (oneOfLoop rec d 0 ss) ↔
    ∃ pre s post, ss = pre ++ s :: post ∧ (∀ x ∈ pre ++ post, sub rec x d = .reject) ∧
      sub rec s d = .accept := by
  induction ss with
  | nil => simp [oneOfLoop]
  | cons s ss ih =>
    have hstep : sub rec s d = .reject → (Acc (oneOfLoop rec d 0 ss) ↔
        ∃ pre t post, s :: ss = pre ++ t :: post ∧ (∀ x ∈ pre ++ post, sub rec x d = .reject) ∧
          sub rec t d = .accept) := by
      intro hr
      rw [ih]
      constructor
      · rintro ⟨pre, t, post, rfl, h1, h2⟩
        exact ⟨s :: pre, t, post, rfl, by simpa [hr] using h1, h2⟩
      · rintro ⟨pre, t, post, he, h1, h2⟩
        cases pre with
        | nil => simp only [List.nil_append, List.cons.injEq] at he; rw [he.1, h2] at hr; cases hr
        | cons a pre =>
          simp only [List.cons_append, List.cons.injEq] at he
          exact ⟨pre, t, post, he.2, fun x hx => h1 x (by simp only [List.cons_append, List.mem_cons]; exact Or.inr hx), h2⟩
    have hbad : sub rec s d = .abnormal →
        ¬ ∃ pre t post, s :: ss = pre ++ t :: post ∧ (∀ x ∈ pre ++ post, sub rec x d = .reject) ∧
          sub rec t d = .accept := by
      rintro hr ⟨pre, t, post, he, h1, h2⟩
      cases pre with
      | nil => simp only [List.nil_append, List.cons.injEq] at he; rw [he.1, h2] at hr; cases hr
      | cons a pre =>
        simp only [List.cons_append, List.cons.injEq] at he
        rw [he.1, h1 a (by simp)] at hr; cases hr
    have hgood : sub rec s d = .accept → ((∀ x ∈ ss, sub rec x d = .reject) ↔
        ∃ pre t post, s :: ss = pre ++ t :: post ∧ (∀ x ∈ pre ++ post, sub rec x d = .reject) ∧
          sub rec t d = .accept) := by
      intro hr
      constructor
      · intro h; exact ⟨[], s, ss, rfl, by simpa using h, hr⟩
      · rintro ⟨pre, t, post, he, h1, h2⟩
        cases pre with
        | nil => simp only [List.nil_append, List.cons.injEq] at he; rw [he.2]; simpa using h1
        | cons a pre =>
          simp only [List.cons_append, List.cons.injEq] at he
          rw [he.1, h1 a (by simp)] at hr; cases hr
    simp only [oneOfLoop]
    cases hr : rec s d with
    | none => simp only; refine iff_of_false (by simp [Acc]) (hbad (by simp [sub, hr, verdict]))
    | some r =>
      cases r with
      | go b =>
        cases b
        · simp only
          rw [if_neg (by omega), acc_oneOfLoop1]
          exact hgood (by simp [sub, hr, verdict])
        · exact hstep (by simp [sub, hr, verdict])
      | stop => exact hstep (by simp [sub, hr, verdict])
      | exn => simp only; refine iff_of_false (by simp [Acc]) (hbad (by simp [sub, hr, verdict]))
      | ub => simp only; refine iff_of_false (by simp [Acc]) (hbad (by simp [sub, hr, verdict]))

theorem acc_anyOfLoop (d : Val) (ss : List Val) : Acc (anyOfLoop rec d ss) ↔
    ∃ pre s post, ss = pre ++ s :: post ∧ (∀ x ∈ pre, sub rec x d = .reject) ∧ sub rec s d = .accept := by
  induction ss with
  | nil => simp [anyOfLoop]
  | cons s ss ih =>
    have hstep : sub rec s d = .reject → (Acc (anyOfLoop rec d ss) ↔
        ∃ pre t post, s :: ss = pre ++ t :: post ∧ (∀ x ∈ pre, sub rec x d = .reject) ∧
          sub rec t d = .accept) := by
      intro hr
      rw [ih]
      constructor
      · rintro ⟨pre, t, post, rfl, h1, h2⟩
        exact ⟨s :: pre, t, post, rfl, by simpa [hr] using h1, h2⟩
      · rintro ⟨pre, t, post, he, h1, h2⟩
        cases pre with
        | nil => simp only [List.nil_append, List.cons.injEq] at he; rw [he.1, h2] at hr; cases hr
        | cons a pre =>
          simp only [List.cons_append, List.cons.injEq] at he
          exact ⟨pre, t, post, he.2, fun x hx => h1 x (List.mem_cons_of_mem _ hx), h2⟩
    have hbad : sub rec s d = .abnormal →
        ¬ ∃ pre t post, s :: ss = pre ++ t :: post ∧ (∀ x ∈ pre, sub rec x d = .reject) ∧
          sub rec t d = .accept := by
      rintro hr ⟨pre, t, post, he, h1, h2⟩
      cases pre with
      | nil => simp only [List.nil_append, List.cons.injEq] at he; rw [he.1, h2] at hr; cases hr
      | cons a pre =>
        simp only [List.cons_append, List.cons.injEq] at he
        rw [he.1, h1 a (by simp)] at hr; cases hr
    simp only [anyOfLoop]
    cases hr : rec s d with
    | none => simp only; refine iff_of_false (by simp [Acc]) (hbad (by simp [sub, hr, verdict]))
    | some r =>
      cases r with
      | go b =>
        cases b
        · simp only [acc_ok, true_iff]
          exact ⟨[], s, ss, rfl, by simp, by simp [sub, hr, verdict]⟩
        · exact hstep (by simp [sub, hr, verdict])
      | stop => exact hstep (by simp [sub, hr, verdict])
      | exn => simp only; refine iff_of_false (by simp [Acc]) (hbad (by simp [sub, hr, verdict]))
      | ub => simp only; refine iff_of_false (by simp [Acc]) (hbad (by simp [sub, hr, verdict]))

theorem acc_combinations (m : List (Bytes × Val)) (d : Val) :
    Acc (vCombinations rec m d) ↔ CombinationsOk (sub rec) m d := by
  have h1 : Acc (vAllOf rec m d) ↔ ∀ v, has m kAllOf v → ∃ ss, v = .list ss ∧ ∀ s ∈ ss, sub rec s d = .accept := by
    simp only [vAllOf, acc_kw]
    refine forall_congr' fun v => imp_congr_right fun _ => ?_
    cases v <;> simp [verdict_accept]
  have h2 : Acc (vAnyOf rec m d) ↔ ∀ v, has m kAnyOf v → ∃ pre s post, v = .list (pre ++ s :: post) ∧
      (∀ x ∈ pre, sub rec x d = .reject) ∧ sub rec s d = .accept := by
    simp only [vAnyOf, acc_kw]
    refine forall_congr' fun v => imp_congr_right fun _ => ?_
    cases v with
    | list ss => simp only [acc_anyOfLoop, Val.list.injEq]
    | _ => simp
  have h3 : Acc (vOneOf rec m d) ↔ ∀ v, has m kOneOf v → ∃ pre s post, v = .list (pre ++ s :: post) ∧
      (∀ x ∈ pre ++ post, sub rec x d = .reject) ∧ sub rec s d = .accept := by
    simp only [vOneOf, acc_kw]
    refine forall_congr' fun v => imp_congr_right fun _ => ?_
    cases v with
    | list ss => simp only [acc_oneOfLoop, Val.list.injEq]
    | _ => simp
  have h4 : Acc (vNot rec m d) ↔ ∀ s, has m kNot s → sub rec s d = .reject := by
    simp only [vNot, acc_kw]
    refine forall_congr' fun s => imp_congr_right fun _ => ?_
    cases hr : rec s d with
    | none => simp [verdict, hr, sub, Acc]
    | some r =>
      cases r with
      | go b => cases b <;> simp [verdict, hr, sub]
      | _ => simp [verdict, hr, sub, Acc, ok]
  simp only [vCombinations, acc_seq, h1, h2, h3, h4]
  exact ⟨fun ⟨a, b, c, e⟩ => ⟨a, b, c, e⟩, fun ⟨a, b, c, e⟩ => ⟨a, b, c, e⟩⟩

theorem acc_atLeast (m : List (Bytes × Val)) (k : Bytes) (n : Nat) :
    Acc (sizeLimit m k fun u => n < u.toNat) ↔ AtLeast m k n := by
  simp only [sizeLimit, acc_kw, AtLeast]
  refine forall_congr' fun l => imp_congr_right fun _ => ?_
  by_cases h : isNumber l = true <;> simp [h]

theorem acc_atMost (m : List (Bytes × Val)) (k : Bytes) (n : Nat) :
    Acc (sizeLimit m k fun u => n > u.toNat) ↔ AtMost m k n := by
  simp only [sizeLimit, acc_kw, AtMost]
  refine forall_congr' fun l => imp_congr_right fun _ => ?_
  by_cases h : isNumber l = true <;> simp [h]

theorem acc_extra (m : List (Bytes × Val)) (k : Bytes) (x : Val) :
    Acc (extra rec m k x) ↔ ExtraOk (sub rec) m k x := by
  simp only [extra, acc_kw, ExtraOk, lacks, has]
  cases h : AMap.get m k with
  | none => simp
  | some a =>
    simp only [Option.some.injEq, forall_eq', reduceCtorEq, false_or]
    cases a with
    | bool b => cases b <;> simp [Val.ty]
    | _ => simp [Val.ty, verdict_accept]

theorem acc_string (E : Env) (m : List (Bytes × Val)) (d : Val) :
    Acc (vString E m d) ↔ ∀ s, d = .str s → StringOk E m s := by
  have hre : ∀ re s, Acc (matchRe E re s) ↔ ∃ g, E.regex re = some g ∧ g (s.takeWhile (· ≠ 0)) = true := by
    intro re s; unfold matchRe; cases E.regex re <;> simp
  cases d with
  | str s =>
    have h1 : Acc (vPattern E m s) ↔ ∀ p, has m kPattern p → ∃ t g, p = .str t ∧
        E.regex (t.takeWhile (· ≠ 0)) = some g ∧ g (s.takeWhile (· ≠ 0)) = true := by
      simp only [vPattern, acc_kw]
      refine forall_congr' fun p => imp_congr_right fun _ => ?_
      cases p with
      | str t => simp only [hre, Val.str.injEq]; simp
      | _ => simp
    have h2 : Acc (vFormat E m s) ↔ (has m kFormat (.str wRegex) → (E.regex (s.takeWhile (· ≠ 0))).isSome = true) ∧
        ∀ w re, (w, re) ∈ [(wDateTime, reDateTime), (wDate, reDate), (wTime, reTime)] →
          has m kFormat (.str w) → ∃ g, E.regex re = some g ∧ g (s.takeWhile (· ≠ 0)) = true := by
      simp only [vFormat, acc_kw, has]
      cases h : AMap.get m kFormat with
      | none => simp
      | some v =>
        have hne : reDateTime ≠ [] ∧ reDate ≠ [] ∧ reTime ≠ [] := by decide
        have hw : wDateTime ≠ wRegex ∧ wDate ≠ wRegex ∧ wTime ≠ wRegex ∧ wDate ≠ wDateTime ∧ wTime ≠ wDateTime ∧ wTime ≠ wDate := by decide
        obtain ⟨n1, n2, n3⟩ := hne
        obtain ⟨w1, w2, w3, w4, w5, w6⟩ := hw
        cases v with
        | str w =>
          simp only [Option.some.injEq, forall_eq', Val.str.injEq]
          by_cases a1 : w = wRegex
          · subst a1
            simp only [if_true, List.mem_cons, Prod.mk.injEq, List.not_mem_nil, or_false]
            constructor
            · intro h'
              refine ⟨fun _ => by simpa [Option.isSome_iff_ne_none] using h', ?_⟩
              rintro w re (⟨rfl, rfl⟩ | ⟨rfl, rfl⟩ | ⟨rfl, rfl⟩) he
              · exact absurd he.symm w1
              · exact absurd he.symm w2
              · exact absurd he.symm w3
            · rintro ⟨h', _⟩; simpa [Option.isSome_iff_ne_none] using h'
          · rw [if_neg a1]
            by_cases a2 : w = wDateTime
            · subst a2
              simp only [if_true, if_neg n1, hre]
              constructor
              · intro h'
                refine ⟨fun h => absurd h a1, ?_⟩
                intro w re hm he
                simp only [List.mem_cons, Prod.mk.injEq, List.not_mem_nil, or_false] at hm
                rcases hm with ⟨rfl, rfl⟩ | ⟨rfl, rfl⟩ | ⟨rfl, rfl⟩
                · exact h'
                · exact absurd he.symm w4
                · exact absurd he.symm w5
              · rintro ⟨_, h'⟩; exact h' wDateTime reDateTime (by simp) rfl
            · rw [if_neg a2]
              by_cases a3 : w = wDate
              · subst a3
                simp only [if_true, if_neg n2, hre]
                constructor
                · intro h'
                  refine ⟨fun h => absurd h a1, ?_⟩
                  intro w re hm he
                  simp only [List.mem_cons, Prod.mk.injEq, List.not_mem_nil, or_false] at hm
                  rcases hm with ⟨rfl, rfl⟩ | ⟨rfl, rfl⟩ | ⟨rfl, rfl⟩
                  · exact absurd he w4
                  · exact h'
                  · exact absurd he.symm w6
                · rintro ⟨_, h'⟩; exact h' wDate reDate (by simp) rfl
              · rw [if_neg a3]
                by_cases a4 : w = wTime
                · subst a4
                  simp only [if_true, if_neg n3, hre]
                  constructor
                  · intro h'
                    refine ⟨fun h => absurd h a1, ?_⟩
                    intro w re hm he
                    simp only [List.mem_cons, Prod.mk.injEq, List.not_mem_nil, or_false] at hm
                    rcases hm with ⟨rfl, rfl⟩ | ⟨rfl, rfl⟩ | ⟨rfl, rfl⟩
                    · exact absurd he w5
                    · exact absurd he w6
                    · exact h'
                  · rintro ⟨_, h'⟩; exact h' wTime reTime (by simp) rfl
                · rw [if_neg a4]
                  simp only [if_true, acc_ok, true_iff]
                  refine ⟨fun h => absurd h a1, ?_⟩
                  intro w' re hm he
                  simp only [List.mem_cons, Prod.mk.injEq, List.not_mem_nil, or_false] at hm
                  rcases hm with ⟨rfl, rfl⟩ | ⟨rfl, rfl⟩ | ⟨rfl, rfl⟩
                  · exact absurd he a2
                  · exact absurd he a3
                  · exact absurd he a4
        | _ => simp
    simp only [vString, vStringLength, acc_seq, acc_atLeast, acc_atMost, h1, h2, Val.str.injEq, forall_eq']
    exact ⟨fun ⟨⟨a, b⟩, c, e, f⟩ => ⟨a, b, c, e, f⟩, fun ⟨a, b, c, e, f⟩ => ⟨⟨a, b⟩, c, e, f⟩⟩
  | _ => simp [vString]

theorem cmp_incomparable {p : Nat} {v w : Val} (h : cmp p v w = 0) : comparable v w = true := by
  unfold comparable
  cases v <;> cases w <;> first | rfl | (simp [cmp, numLD] at h)

theorem acc_unique (E : Env) (xs : List Val) : Acc (uniqueLoop E xs) ↔
    ∀ (i j : Nat) x y, i < j → xs[i]? = some x → xs[j]? = some y → veq E.p x y = false := by
  induction xs with
  | nil => simp [uniqueLoop]
  | cons a xs ih =>
    simp only [uniqueLoop, acc_seq, acc_each, ih, acc_ite, acc_ok, acc_err, imp_false, implies_true, and_true]
    have hv : ∀ y, ¬ (comparable a y && cmp E.p a y == 0) = true ↔ veq E.p a y = false := by
      intro y
      simp only [veq]
      constructor
      · intro h
        cases h' : (cmp E.p a y == 0) with
        | false => rfl
        | true => exact absurd (by rw [h', cmp_incomparable (by simpa using h')]; rfl) h
      · intro h; simp [h]
    simp only [hv]
    constructor
    · rintro ⟨h1, h2⟩ i j x y hij hx hy
      cases i with
      | zero =>
        cases j with
        | zero => omega
        | succ j =>
          simp only [List.getElem?_cons_zero, Option.some.injEq] at hx
          simp only [List.getElem?_cons_succ] at hy
          subst hx
          exact h1 y (List.mem_of_getElem? hy)
      | succ i =>
        cases j with
        | zero => omega
        | succ j => exact h2 i j x y (by omega) (by simpa using hx) (by simpa using hy)
    · intro h
      refine ⟨fun y hy => ?_, fun i j x y hij hx hy => h (i+1) (j+1) x y (by omega) (by simpa using hx) (by simpa using hy)⟩
      obtain ⟨j, hj⟩ := List.getElem?_of_mem hy
      exact h 0 (j+1) a y (by omega) (by simp) (by simpa using hj)

theorem acc_itemsLoop (m : List (Bytes × Val)) (ss xs : List Val) : Acc (itemsLoop rec m ss xs) ↔
    ∀ (i : Nat) x, xs[i]? = some x → (∀ s, ss[i]? = some s → sub rec s x = .accept) ∧
      (ss[i]? = none → ExtraOk (sub rec) m kAdditionalItems x) := by
  induction xs generalizing ss with
  | nil => cases ss <;> simp [itemsLoop]
  | cons a xs ih =>
    cases ss with
    | nil =>
      simp only [itemsLoop, acc_seq, ih, acc_extra]
      constructor
      · rintro ⟨h1, h2⟩ i x hx
        cases i with
        | zero => simp only [List.getElem?_cons_zero, Option.some.injEq] at hx; subst hx; simpa using h1
        | succ i => simpa using h2 i x (by simpa using hx)
      · intro h
        exact ⟨by simpa using h 0 a (by simp), fun i x hx => by simpa using h (i+1) x (by simpa using hx)⟩
    | cons s ss =>
      simp only [itemsLoop, acc_seq, ih]
      constructor
      · rintro ⟨h1, h2⟩ i x hx
        cases i with
        | zero =>
          simp only [List.getElem?_cons_zero, Option.some.injEq] at hx; subst hx
          simpa [verdict_accept] using h1
        | succ i => simpa using h2 i x (by simpa using hx)
      · intro h
        refine ⟨?_, fun i x hx => by simpa using h (i+1) x (by simpa using hx)⟩
        exact verdict_accept.mp ((h 0 a (by simp)).1 s (by simp))

theorem acc_array (E : Env) (m : List (Bytes × Val)) (d : Val) :
    Acc (vArray E rec m d) ↔ ∀ xs, d = .list xs → ArrayOk E (sub rec) m xs := by
  cases d with
  | list xs =>
    have h1 : Acc (vUniqueItems E m xs) ↔ ∀ u, has m kUniqueItems u → u = .bool false ∨
        (u = .bool true ∧ ∀ (i j : Nat) x y, i < j → xs[i]? = some x → xs[j]? = some y → veq E.p x y = false) := by
      simp only [vUniqueItems, acc_kw]
      refine forall_congr' fun u => imp_congr_right fun _ => ?_
      cases u with
      | bool b => cases b <;> simp [acc_unique]
      | _ => simp
    have h2 : Acc (vItems rec m xs) ↔ (∀ s, has m kItems s → s.ty ≠ .list → ∀ x ∈ xs, sub rec s x = .accept) ∧
        ∀ ss, has m kItems (.list ss) → ∀ (i : Nat) x, xs[i]? = some x →
          (∀ s, ss[i]? = some s → sub rec s x = .accept) ∧
            (ss[i]? = none → ExtraOk (sub rec) m kAdditionalItems x) := by
      simp only [vItems, acc_kw, has]
      cases h : AMap.get m kItems with
      | none => simp
      | some v =>
        cases v with
        | list ss => simp [acc_itemsLoop, Val.ty]
        | _ => simp [Val.ty, verdict_accept]
    simp only [vArray, vArrayLength, acc_seq, acc_atLeast, acc_atMost, h1, h2, Val.list.injEq, forall_eq']
    exact ⟨fun ⟨⟨a, b⟩, c, e, f⟩ => ⟨a, b, c, e, f⟩, fun ⟨a, b, c, e, f⟩ => ⟨⟨a, b⟩, c, e, f⟩⟩
  | _ => simp [vArray]

theorem acc_limit (E : Env) (m : List (Bytes × Val)) (k kx : Bytes) (d : Val) (bad : Int → Bool) :
    Acc (limit E m k kx d bad) ↔ ∀ l, has m k l → isNumber l = true ∧ ¬ bad (cmp E.p d l) = true ∧
      ∀ x, has m kx x → ∃ b, asBool x = .ok b ∧ (b = true → cmp E.p d l ≠ 0) := by
  simp only [limit, acc_kw]
  refine forall_congr' fun l => imp_congr_right fun _ => ?_
  by_cases h : isNumber l = true
  · by_cases hb : bad (cmp E.p d l) = true <;> simp [h, hb]
  · simp [h]

theorem acc_numeric (E : Env) (m : List (Bytes × Val)) (d : Val) :
    Acc (vNumeric E m d) ↔ (isNumber d = true → NumberOk E m d) := by
  have h1 : Acc (vMultipleOf E m d) ↔ ∀ q, (has m kMultipleOf q ∨ (lacks m kMultipleOf ∧ has m kDivisibleBy q)) →
    isNumber q = true ∧ ¬ cmp E.p q (.int 0) < 0 ∧
    (d.ty ≠ .flt → q.ty ≠ .flt → ∃ r, arith (fun _ v _ => v) .rem d q = .ok r ∧ cmp E.p r (.int 0) = 0) ∧
    (d.ty = .flt ∨ q.ty = .flt → ∀ a b, numLD E.p d = some a → numLD E.p q = some b →
      LD.lt (tolerance E.p) (ldMod a b) = false ∨ LD.lt (tolerance E.p) (absDiff E.p (ldMod a b) b) = false) := by
    have hq : ∀ q, (has m kMultipleOf q ∨ (lacks m kMultipleOf ∧ has m kDivisibleBy q)) ↔
        (AMap.get m kMultipleOf).or (AMap.get m kDivisibleBy) = some q := by
      intro q; simp only [has, lacks]; cases AMap.get m kMultipleOf <;> simp
    simp only [hq]
    unfold vMultipleOf
    cases (AMap.get m kMultipleOf).or (AMap.get m kDivisibleBy) with
    | none => simp
    | some q =>
      simp only [Option.some.injEq, forall_eq']
      by_cases c1 : isNumber q = true
      · by_cases c2 : cmp E.p q (.int 0) < 0
        · simp [c1, c2]
        · rw [if_neg (by simp [c1, c2])]
          by_cases c3 : d.ty = .flt ∨ q.ty = .flt
          · rw [if_pos c3]
            simp only [c1, c2, not_false_eq_true, true_and, c3, true_implies]
            have : (d.ty ≠ .flt → q.ty ≠ .flt → ∃ r, arith (fun _ v _ => v) .rem d q = .ok r ∧ cmp E.p r (.int 0) = 0) ↔ True := by
              refine iff_true_intro fun a b => ?_
              rcases c3 with c | c
              · exact absurd c a
              · exact absurd c b
            rw [this]
            cases numLD E.p d <;> cases numLD E.p q <;> simp
            rename_i a b
            cases LD.lt (tolerance E.p) (ldMod a b) <;> simp
          · rw [if_neg c3]
            have c4 : d.ty ≠ .flt := fun h => c3 (Or.inl h)
            have c5 : q.ty ≠ .flt := fun h => c3 (Or.inr h)
            simp [c1, c2, c4, c5]
      · simp [c1]
  by_cases h : isNumber d = true
  · simp only [vNumeric, h, if_true, acc_seq, vMinMax, acc_limit, h1, true_implies, decide_eq_true_eq]
    exact ⟨fun ⟨c, a, b⟩ => ⟨a, b, c⟩, fun ⟨a, b, c⟩ => ⟨c, a, b⟩⟩
  · simp [vNumeric, h]

theorem acc_typeLoop (E : Env) (d : Val) (ws : List Val) : Acc (typeLoop E d ws) ↔
    ∃ pre w post, ws = pre ++ w :: post ∧ (∀ x ∈ pre, hasType E d x = some false) ∧
      hasType E d w = some true := by
  induction ws with
  | nil => simp [typeLoop]
  | cons w ws ih =>
    simp only [typeLoop]
    constructor
    · intro h
      split at h
      · rename_i hw; exact ⟨[], w, ws, rfl, by simp, hw⟩
      · rename_i hw
        obtain ⟨pre, w', post, rfl, h1, h2⟩ := ih.mp h
        exact ⟨w :: pre, w', post, rfl, by simpa [hw] using h1, h2⟩
      · simp at h
    · rintro ⟨pre, w', post, he, h1, h2⟩
      cases pre with
      | nil =>
        simp only [List.nil_append, List.cons.injEq] at he
        rw [he.1, h2]; simp
      | cons a pre =>
        simp only [List.cons_append, List.cons.injEq] at he
        rw [he.1, h1 a (by simp)]
        exact ih.mpr ⟨pre, w', post, he.2, fun x hx => h1 x (List.mem_cons_of_mem _ hx), h2⟩

theorem acc_type (E : Env) (m : List (Bytes × Val)) (d : Val) :
    Acc (vType E m d) ↔ ∀ t, has m kType t → TypeOk E t d := by
  simp only [vType, acc_kw]
  refine forall_congr' fun t => imp_congr_right fun _ => ?_
  unfold TypeOk
  cases t with
  | list ws => simp only [acc_typeLoop, Val.ty, if_true, Val.list.injEq]
  | _ => simp only [acc_typeLoop, Val.ty, reduceCtorEq, if_false, Val.list.injEq]

theorem acc_enum (E : Env) (m : List (Bytes × Val)) (d : Val) :
    Acc (vEnum E m d) ↔ ∀ v, has m kEnum v → ∃ vs, v = .list vs ∧ ∃ x ∈ vs, veq E.p x d = true := by
  simp only [vEnum, acc_kw]
  refine forall_congr' fun v => imp_congr_right fun _ => ?_
  cases v with
  | list vs =>
    simp only [acc_ite, acc_ok, acc_err, implies_true, true_and, imp_false, Decidable.not_not,
      List.any_eq_true, Val.list.injEq, Bool.and_eq_true, veq]
    constructor
    · rintro ⟨x, hx, _, h⟩; exact ⟨vs, rfl, x, hx, h⟩
    · rintro ⟨_, rfl, x, hx, h⟩; exact ⟨x, hx, cmp_incomparable (by simpa using h), h⟩
  | _ => simp

theorem acc_ref (E : Env) (m : List (Bytes × Val)) (d : Val) :
    Acc (vRef E rec m d) ↔ ∀ r, has m kRef (.str r) → ∃ t, E.loader r = .ok t ∧ sub rec t d = .accept := by
  simp only [vRef, acc_kw, has]
  cases h : AMap.get m kRef with
  | none => simp
  | some v => cases v <;> simp [verdict_accept]

end
end Verif.Schema
