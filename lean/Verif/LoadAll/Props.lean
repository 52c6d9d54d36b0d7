import Verif.LoadAll.Spec
/-!
# C85 Iterating over documents
-/

namespace Verif.LoadAll
open Verif

variable {σ : Type} {P : Source σ}

theorem isNull_iff (v : Val) : isNull v = true ↔ v = .null := by cases v <;> simp [isNull]

/-- An iterator and its position. -/
def Same (P : Source σ) (p : σ) (n len : Nat) (x : It) (y : Option Nat) : Prop :=
  (y = none ∧ x = ⟨false, none⟩) ∨
  ∃ k, y = some k ∧ x.impl = true ∧ (x.value = some k ∧ k < n ∨ x.value = none ∧ k = len ∧ P.done p = true)

/-- Two lists of iterators. -/
def SameAll (P : Source σ) (p : σ) (n len : Nat) (xs : List It) (ys : List (Option Nat)) : Prop :=
  xs.length = ys.length ∧ ∀ (i : Nat) x y, xs[i]? = some x → ys[i]? = some y → Same P p n len x y

/-- The nodes are linked one to the next. -/
def Linked (ns : List Node) : Prop := ∀ j x, ns[j]? = some x → x.next = if j + 1 < ns.length then some (j + 1) else none

/-- A state of the iterators and of the specification. -/
structure Rel (P : Source σ) (s : St σ) (a : Spec) : Prop where
  linked : Linked s.nodes
  vals : ∃ rest, Rest P s.parser rest ∧ a.vals = s.nodes.map (·.v) ++ rest
  its : SameAll P s.parser s.nodes.length a.vals.length s.its a.its

theorem SameAll.look {p : σ} {n len : Nat} {xs ys} (h : SameAll P p n len xs ys) (i : Nat) :
    (xs[i]? = none ∧ ys[i]? = none) ∨ ∃ x y, xs[i]? = some x ∧ ys[i]? = some y ∧ Same P p n len x y := by
  by_cases hi : i < xs.length
  · have hj : i < ys.length := h.1 ▸ hi
    exact .inr ⟨xs[i], ys[i], List.getElem?_eq_getElem hi, List.getElem?_eq_getElem hj,
      h.2 i _ _ (List.getElem?_eq_getElem hi) (List.getElem?_eq_getElem hj)⟩
  · exact .inl ⟨List.getElem?_eq_none (by omega), List.getElem?_eq_none (by have := h.1; omega)⟩

theorem SameAll.push {p : σ} {n len : Nat} {xs ys x y} (h : SameAll P p n len xs ys) (hxy : Same P p n len x y) :
    SameAll P p n len (xs ++ [x]) (ys ++ [y]) := by
  refine ⟨by simp [h.1], fun i a b ha hb => ?_⟩
  by_cases hi : i < xs.length
  · rw [List.getElem?_append_left hi] at ha
    rw [List.getElem?_append_left (h.1 ▸ hi)] at hb
    exact h.2 i a b ha hb
  · rw [List.getElem?_append_right (by omega)] at ha
    rw [List.getElem?_append_right (by have := h.1; omega)] at hb
    have h0 := h.1
    cases hk : i - xs.length with
    | zero =>
      rw [hk] at ha
      rw [show i - ys.length = 0 by omega] at hb
      cases ha; cases hb; exact hxy
    | succ m => rw [hk] at ha; cases ha

theorem SameAll.put {p : σ} {n len : Nat} {xs ys x y} (h : SameAll P p n len xs ys) (hxy : Same P p n len x y) (i : Nat) :
    SameAll P p n len (xs.set i x) (ys.set i y) := by
  refine ⟨by simp [h.1], fun j a b ha hb => ?_⟩
  rw [List.getElem?_set] at ha hb
  by_cases hij : i = j
  · subst hij
    rw [if_pos rfl] at ha hb
    by_cases hi : i < xs.length
    · rw [if_pos hi] at ha
      rw [if_pos (h.1 ▸ hi)] at hb
      cases ha; cases hb; exact hxy
    · rw [if_neg hi] at ha; cases ha
  · rw [if_neg hij] at ha hb
    exact h.2 j a b ha hb

theorem SameAll.move {p : σ} {n len : Nat} {xs ys} (h : SameAll P p n len xs ys) {x : It} (hi : x.impl = true) {k : Nat} {v : Option Nat} (i : Nat)
    (hv : v = some k ∧ k < n ∨ v = none ∧ k = len ∧ P.done p = true) :
    SameAll P p n len (xs.set i { x with value := v }) (ys.set i (some k)) := h.put (x := { x with value := v }) (.inr ⟨k, rfl, hi, hv⟩) i

/-- The nodes become more, or the parser moves on: if it was not done no iterator was at the end. -/
theorem SameAll.grow {p q : σ} {n m len : Nat} {xs ys} (h : SameAll P p n len xs ys) (hn : n ≤ m) (hd : P.done p = false) :
    SameAll P q m len xs ys := by
  refine ⟨h.1, fun i x y hx hy => ?_⟩
  rcases h.2 i x y hx hy with h | ⟨k, h1, h2, h3 | h3⟩
  · exact .inl h
  · exact .inr ⟨k, h1, h2, .inl ⟨h3.1, by omega⟩⟩
  · rw [hd] at h3; cases h3.2.2

theorem linked_push {ns : List Node} (h : Linked ns) (hne : ns ≠ []) (v : Val) {x : Node} (hx : ns[ns.length - 1]? = some x) :
    Linked (ns.set (ns.length - 1) { x with next := some ns.length } ++ [⟨v, none⟩]) := by
  have hl : 0 < ns.length := List.length_pos_iff.2 hne
  intro j y hy
  simp only [List.length_append, List.length_set, List.length_singleton]
  by_cases hj : j < ns.length
  · rw [List.getElem?_append_left (by simpa using hj), List.getElem?_set] at hy
    rw [if_pos (by omega)]
    by_cases he : ns.length - 1 = j
    · rw [if_pos he, if_pos (by omega)] at hy
      cases hy
      simp only [Option.some.injEq]; omega
    · rw [if_neg he] at hy
      have := h j y hy
      rwa [if_pos (by omega)] at this
  · rw [List.getElem?_append_right (by simp; omega)] at hy
    simp only [List.length_set] at hy
    cases hk : j - ns.length with
    | zero =>
      rw [hk] at hy
      cases hy
      rw [if_neg (by omega)]
    | succ m => rw [hk] at hy; cases hy

/-- One operation. -/
theorem step_rel {s : St σ} {a : Spec} (h : Rel P s a) (op : Op) :
    ∃ s', step P s op = some (s', (a.step op).2) ∧ ((a.step op).2 ≠ .ub → Rel P s' (a.step op).1) := by
  obtain ⟨rest, hrest, hv⟩ := h.vals
  have hlen : a.vals.length = s.nodes.length + rest.length := by rw [hv]; simp
  have hpos : ∀ x y, Same P s.parser s.nodes.length a.vals.length x y → x.value = none → a.pos y = a.vals.length := by
    intro x y hs hx
    rcases hs with ⟨rfl, rfl⟩ | ⟨k, rfl, _, h3 | h3⟩
    · rfl
    · rw [h3.1] at hx; cases hx
    · exact h3.2.1
  have hpos' : ∀ x y n, Same P s.parser s.nodes.length a.vals.length x y → x.value = some n → a.pos y = n ∧ n < s.nodes.length := by
    intro x y n hs hx
    rcases hs with ⟨rfl, rfl⟩ | ⟨k, rfl, _, h3 | h3⟩
    · cases hx
    · rw [h3.1] at hx; cases hx; exact ⟨rfl, h3.2⟩
    · rw [h3.1] at hx; cases hx
  cases op with
  | copy i =>
    rcases h.its.look i with ⟨h1, h2⟩ | ⟨x, y, h1, h2, hs⟩
    · exact ⟨s, by simp only [step, Spec.step, h1, h2], fun _ => by simp only [Spec.step, h2]; exact h⟩
    · refine ⟨_, by simp only [step, Spec.step, h1, h2]; rfl, fun _ => ?_⟩
      simp only [Spec.step, h2]
      exact ⟨h.linked, ⟨rest, hrest, hv⟩, h.its.push hs⟩
  | default =>
    exact ⟨_, rfl, fun _ => ⟨h.linked, ⟨rest, hrest, hv⟩, h.its.push (.inl ⟨rfl, rfl⟩)⟩⟩
  | assign i j =>
    rcases h.its.look j with ⟨h1, h2⟩ | ⟨x, y, h1, h2, hs⟩
    · exact ⟨s, by simp only [step, Spec.step, h1, h2], fun _ => by simp only [Spec.step, h2]; exact h⟩
    · refine ⟨_, by simp only [step, Spec.step, h1, h2]; rfl, fun _ => ?_⟩
      simp only [Spec.step, h2]
      exact ⟨h.linked, ⟨rest, hrest, hv⟩, h.its.put hs i⟩
  | get i =>
    rcases h.its.look i with ⟨h1, h2⟩ | ⟨⟨im, va⟩, y, h1, h2, hs⟩
    · exact ⟨s, by simp only [step, Spec.step, h1, h2], fun _ => by simp only [Spec.step, h2]; exact h⟩
    · cases va with
      | none =>
        have hp := hpos _ y hs rfl
        have e : a.vals[a.pos y]? = none := List.getElem?_eq_none (by omega)
        exact ⟨s, by simp only [step, Spec.step, h1, h2, e], fun _ => by simp only [Spec.step, h2, e]; exact h⟩
      | some n =>
        obtain ⟨hp, hn⟩ := hpos' _ y n hs rfl
        have e1 : s.nodes[n]? = some s.nodes[n] := List.getElem?_eq_getElem hn
        have e : a.vals[a.pos y]? = some s.nodes[n].v := by
          rw [hp, hv, List.getElem?_append_left (by simpa using hn), List.getElem?_map, e1]; rfl
        exact ⟨s, by simp only [step, Spec.step, h1, h2, e, e1], fun _ => by simp only [Spec.step, h2, e]; exact h⟩
  | set i v =>
    rcases h.its.look i with ⟨h1, h2⟩ | ⟨⟨im, va⟩, y, h1, h2, hs⟩
    · exact ⟨s, by simp only [step, Spec.step, h1, h2], fun _ => by simp only [Spec.step, h2]; exact h⟩
    · cases va with
      | none =>
        have hp := hpos _ y hs rfl
        have e : ¬ a.pos y < a.vals.length := by omega
        exact ⟨s, by simp only [step, Spec.step, h1, h2, e, if_false], fun _ => by simp only [Spec.step, h2, e, if_false]; exact h⟩
      | some n =>
        obtain ⟨hp, hn⟩ := hpos' _ y n hs rfl
        have e1 : s.nodes[n]? = some s.nodes[n] := List.getElem?_eq_getElem hn
        have e : a.pos y < a.vals.length := by omega
        refine ⟨_, by simp only [step, Spec.step, h1, h2, e, e1, if_true]; rfl, fun _ => ?_⟩
        simp only [Spec.step, h2, e, if_true]
        refine ⟨?_, ⟨rest, hrest, ?_⟩, ?_⟩
        · intro j x hx
          simp only [List.length_set]
          rw [List.getElem?_set] at hx
          by_cases hj : n = j
          · rw [if_pos hj, if_pos hn] at hx
            have := h.linked n _ e1
            cases hx
            rw [← hj]
            exact this
          · rw [if_neg hj] at hx
            exact h.linked j x hx
        · simp only [hv, hp, List.map_set]
          rw [List.set_append_left _ _ (by simpa using hn)]
        · simpa using h.its
  | eq i j =>
    rcases h.its.look i with ⟨h1, h2⟩ | ⟨x, y, h1, h2, hs⟩
    · exact ⟨s, by simp only [step, Spec.step, h1, h2], fun _ => by simp only [Spec.step, h2]; exact h⟩
    · rcases h.its.look j with ⟨h3, h4⟩ | ⟨x', y', h3, h4, hs'⟩
      · exact ⟨s, by simp only [step, Spec.step, h1, h2, h3, h4], fun _ => by simp only [Spec.step, h2, h4]; exact h⟩
      · refine ⟨s, ?_, fun _ => by simp only [Spec.step, h2, h4]; exact h⟩
        simp only [step, Spec.step, h1, h2, h3, h4]
        cases hx : x.value with
        | none =>
          cases hx' : x'.value with
          | none => simp [hpos x y hs hx, hpos x' y' hs' hx']
          | some n =>
            obtain ⟨hp, hn⟩ := hpos' x' y' n hs' hx'
            have : a.vals.length ≠ n := by omega
            simp [hpos x y hs hx, hp, this]
        | some m =>
          obtain ⟨hp, hn⟩ := hpos' x y m hs hx
          cases hx' : x'.value with
          | none =>
            have : m ≠ a.vals.length := by omega
            simp [hpos x' y' hs' hx', hp, this]
          | some n =>
            obtain ⟨hp', hn'⟩ := hpos' x' y' n hs' hx'
            simp [hp, hp']
  | next i =>
    rcases h.its.look i with ⟨h1, h2⟩ | ⟨x, y, h1, h2, hs⟩
    · exact ⟨s, by simp only [step, Spec.step, h1, h2], fun _ => by simp only [Spec.step, h2]; exact h⟩
    · rcases hs with ⟨rfl, rfl⟩ | ⟨k, rfl, hi, ⟨hk, hkn⟩ | ⟨hk, rfl, hd⟩⟩
      · exact ⟨⟨s.parser, s.nodes, s.its⟩, by simp only [step, Spec.step, h1, h2, next, Bool.not_false, if_true], by simp only [Spec.step, h2]; nofun⟩
      · have e1 : s.nodes[k]? = some s.nodes[k] := List.getElem?_eq_getElem hkn
        have hl := h.linked k _ e1
        by_cases hlast : k + 1 < s.nodes.length
        · rw [if_pos hlast] at hl
          refine ⟨⟨s.parser, s.nodes, s.its.set i { x with value := some (k + 1) }⟩, by simp only [step, Spec.step, h1, h2, next, hk, e1, hl],
            fun _ => ?_⟩
          simp only [Spec.step, h2]
          exact ⟨h.linked, ⟨rest, hrest, hv⟩, h.its.move hi i (.inl ⟨by rw [Nat.min_eq_left (by omega)], by omega⟩)⟩
        · rw [if_neg hlast] at hl
          have hend : k = s.nodes.length - 1 := by omega
          by_cases hdone : P.done s.parser = true
          · have hr : rest = [] := by
              cases hrest with
              | done _ => rfl
              | last _ _ _ => rfl
              | more h0 => rw [hdone] at h0; cases h0
            refine ⟨⟨s.parser, s.nodes, s.its.set i { x with value := none }⟩,
              by simp only [step, Spec.step, h1, h2, next, hk, e1, hl, hdone, Bool.not_true, Bool.false_eq_true, if_false], fun _ => ?_⟩
            simp only [Spec.step, h2]
            refine ⟨h.linked, ⟨rest, hrest, hv⟩, h.its.move hi i (.inr ⟨rfl, ?_, hdone⟩)⟩
            rw [hr, List.length_nil] at hlen
            omega
          · have hdone : P.done s.parser = false := by simpa using hdone
            cases hrest with
            | done h0 => rw [hdone] at h0; cases h0
            | last h0 h3 h4 =>
              rename_i q
              refine ⟨⟨q, s.nodes, s.its.set i { x with value := none }⟩,
                by simp only [step, Spec.step, h1, h2, next, hk, e1, hl, hdone, Bool.not_false, if_true, h3, h4, isNull, Bool.and_true], fun _ => ?_⟩
              simp only [Spec.step, h2]
              refine ⟨h.linked, ⟨[], .done h4, hv⟩, (h.its.grow (Nat.le_refl _) hdone).move hi i (.inr ⟨rfl, ?_, h4⟩)⟩
              rw [List.length_nil] at hlen
              omega
            | more h0 h3 h4 h5 =>
              rename_i q v vs
              have hnull : (P.done q && isNull v) = false := by
                rcases h4 with h4 | h4
                · rw [h4]; rfl
                · cases hb : isNull v
                  · simp
                  · exact absurd ((isNull_iff v).1 hb) h4
              refine ⟨⟨q, s.nodes.set k { s.nodes[k] with next := some s.nodes.length } ++ [⟨v, none⟩],
                s.its.set i { x with value := some s.nodes.length }⟩,
                by simp only [step, Spec.step, h1, h2, next, hk, e1, hl, hdone, Bool.not_false, if_true, h3, hnull, Bool.false_eq_true, if_false], fun _ => ?_⟩
              simp only [Spec.step, h2]
              refine ⟨?_, ⟨vs, h5, ?_⟩, ?_⟩
              · subst hend
                exact linked_push h.linked (by intro e; rw [e] at hkn; exact absurd hkn (by simp)) v e1
              · simp only [hv, List.map_append, List.map_set, List.map_cons, List.map_nil, List.append_assoc, List.singleton_append]
                congr 1
                apply List.ext_getElem?
                intro j
                rw [List.getElem?_set]
                split
                · rename_i hkj
                  subst hkj
                  rw [List.getElem?_map, e1]
                  simp [hkn]
                · rfl
              · simp only [List.length_append, List.length_set, List.length_singleton]
                refine (h.its.grow (by omega) hdone).move hi i (.inl ⟨?_, ?_⟩)
                · rw [List.length_cons] at hlen
                  rw [Nat.min_eq_left (by omega)]
                  congr 1; omega
                · rw [List.length_cons] at hlen; omega
      · refine ⟨⟨s.parser, s.nodes, s.its.set i { x with value := none }⟩,
          by simp only [step, Spec.step, h1, h2, next, hk, hi, hd, Bool.not_true, Bool.false_eq_true, if_false], fun _ => ?_⟩
        simp only [Spec.step, h2]
        exact ⟨h.linked, ⟨rest, hrest, hv⟩, h.its.move hi i (.inr ⟨rfl, by omega, hd⟩)⟩

theorem run_rel : ∀ (ops : List Op) {s : St σ} {a : Spec} (_ : Rel P s a), run P s ops = some (a.run ops)
  | [], _, _, _ => rfl
  | op :: ops, s, a, h => by
    obtain ⟨s', h1, h2⟩ := step_rel h op
    rw [run, h1, Spec.run]
    cases hst : a.step op with
    | mk a' o =>
      rw [hst] at h2
      cases o with
      | ub => rfl
      | ok x => simp only [run_rel ops (h2 (by nofun)), Option.map_some]
      | throw x => simp only [run_rel ops (h2 (by nofun)), Option.map_some]

/-- C85.  If the values of a parser are `vs`, the iterator made for it and all its copies, assigned and moved in any
order, behave as positions in `vs`, with the default constructor as the end: `Next` moves one position, and stays at the
end; `Get` is the value there, and throws at the end; a change made through one iterator is seen through all of them;
iterators are equal if their positions are.  Only `Next` on a default constructed iterator is undefined. -/
theorem iterators_are_positions (p : σ) (vs : List Val) (h : Values P p vs) :
    ∃ s, create P p = some (.ok s) ∧ ∀ ops, run P s ops = some (Spec.run ⟨vs, [some 0]⟩ ops) := by
  cases h with
  | none hd =>
    refine ⟨⟨p, [], [⟨true, none⟩]⟩, by simp [create, next, hd], fun ops => run_rel ops ⟨by nofun, ⟨[], .done hd, rfl⟩, rfl, ?_⟩⟩
    intro i x y hx hy
    cases i with
    | zero => cases hx; cases hy; exact .inr ⟨0, rfl, rfl, .inr ⟨rfl, rfl, hd⟩⟩
    | succ i => cases hx
  | some hd hp hr =>
    rename_i q v vs
    refine ⟨⟨q, [⟨v, none⟩], [⟨true, some 0⟩]⟩, by simp [create, next, hd, hp], fun ops => run_rel ops ⟨?_, ⟨vs, hr, rfl⟩, rfl, ?_⟩⟩
    · intro j x hx
      cases j with
      | zero => cases hx; rfl
      | succ j => cases hx
    · intro i x y hx hy
      cases i with
      | zero => cases hx; cases hy; exact .inr ⟨0, rfl, rfl, .inl ⟨rfl, by simp⟩⟩
      | succ i => cases hx

/-- C85.  A parser has one list of values only. -/
theorem rest_one {p : σ} {vs ws : List Val} (h : Rest P p vs) (h' : Rest P p ws) : vs = ws := by
  induction h generalizing ws with
  | done h1 =>
    cases h' with
    | done => rfl
    | last _ _ _ => rfl
    | more h2 => rw [h1] at h2; cases h2
  | last h1 h2 h3 =>
    cases h' with
    | done => rfl
    | last => rfl
    | more h4 h5 h6 =>
      rw [h2] at h5
      cases h5
      rcases h6 with h6 | h6
      · rw [h3] at h6; cases h6
      · exact absurd rfl h6
  | more h1 h2 h3 h4 ih =>
    cases h' with
    | done h5 => rw [h1] at h5; cases h5
    | last h5 h6 h7 =>
      rw [h2] at h6
      cases h6
      rcases h3 with h3 | h3
      · rw [h7] at h3; cases h3
      · exact absurd rfl h3
    | more h5 h6 h7 h8 =>
      rw [h2] at h6
      cases h6
      rw [ih h8]

theorem values_one {p : σ} {vs ws : List Val} (h : Values P p vs) (h' : Values P p ws) : vs = ws := by
  cases h with
  | none h1 =>
    cases h' with
    | none => rfl
    | some h2 => rw [h1] at h2; cases h2
  | some h1 h2 h3 =>
    cases h' with
    | none h4 => rw [h1] at h4; cases h4
    | some h4 h5 h6 =>
      rw [h2] at h5
      cases h5
      rw [rest_one h3 h6]

/-- What can be seen of the iterators: every `Get` and every comparison. -/
def Sees (P : Source σ) (s s' : St σ) : Prop :=
  s.its.length = s'.its.length ∧ ∀ op, (∃ i, op = .get i) ∨ (∃ i j, op = .eq i j) → (step P s op).map (·.2) = (step P s' op).map (·.2)

/-- C85.  If an operation throws, all the iterators are as before. -/
theorem exception_keeps (s s' : St σ) (op : Op) (e : Err) (h : step P s op = some (s', .throw e)) : Sees P s s' := by
  have : s.nodes = s'.nodes ∧ s.its = s'.its := by
    have hnext : ∀ x p ns, next P s.parser s.nodes x = some (p, ns, .throw e) → ns = s.nodes := by
      intro x p ns hn
      unfold next at hn
      repeat' split at hn
      all_goals first | (cases hn; done) | (cases hn; rfl)
    cases op with
    | next i =>
      simp only [step] at h
      repeat' split at h
      all_goals first | (cases h; done) | skip
      rename_i hn
      cases h
      exact ⟨(hnext _ _ _ hn).symm, rfl⟩
    | copy i => simp only [step] at h; repeat' split at h
                all_goals (cases h)
    | default => cases h
    | assign i j => simp only [step] at h; repeat' split at h
                    all_goals (cases h)
    | get i => simp only [step] at h; repeat' split at h
               all_goals first | (cases h; done) | (cases h; exact ⟨rfl, rfl⟩)
    | set i v => simp only [step] at h; repeat' split at h
                 all_goals first | (cases h; done) | (cases h; exact ⟨rfl, rfl⟩)
    | eq i j => simp only [step] at h; repeat' split at h
                all_goals (cases h)
  obtain ⟨h1, h2⟩ := this
  refine ⟨by rw [h2], fun o ho => ?_⟩
  rcases ho with ⟨i, rfl⟩ | ⟨i, j, rfl⟩
  · simp only [step, h1, h2]
    repeat' split
    all_goals rfl
  · simp only [step, h2]
    repeat' split
    all_goals rfl

end Verif.LoadAll
