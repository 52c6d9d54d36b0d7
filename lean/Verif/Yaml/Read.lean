import Verif.Yaml.Spec
import Verif.Build.Props
/-!
# Reading the events of a document
-/

namespace Verif.Yaml
open Verif Verif.JsonDrv
open Verif.Build (asString insertAll)

/-- The anchors of the state are those of the document, the first definitions. -/
def Agree (as : List (Bytes × Val)) (env : Env) : Prop := ∀ n, as.lookup n = env.lookup n

theorem Agree.nil : Agree [] [] := fun _ => rfl

theorem lookup_append (a b : List (Bytes × Val)) (n : Bytes) : (a ++ b).lookup n = (a.lookup n).or (b.lookup n) := by
  induction a with
  | nil => simp
  | cons p a ih =>
    obtain ⟨k, v⟩ := p
    simp only [List.cons_append, List.lookup_cons]
    cases h : n == k <;> simp [ih]

theorem Agree.add {as env} (h : Agree as env) (a : Bytes) (v : Val) : Agree (addAnchor as a v) (define env a v) := by
  intro n
  unfold addAnchor define
  by_cases ha : a = []
  · simp [ha, h n]
  · simp only [ha, if_false]
    by_cases hs : (as.lookup a).isSome
    · rw [if_pos hs, lookup_append, h n]
      by_cases hn : n = a
      · subst hn
        rw [h n] at hs
        obtain ⟨w, hw⟩ := Option.isSome_iff_exists.1 hs
        simp [hw]
      · have : (n == a) = false := by simp [hn]
        simp [List.lookup_cons, this]
    · rw [if_neg hs, lookup_append, lookup_append, h n]

/-- The handlers after receiving a value. -/
def receive : List Frame → Val → List Frame
  | .root _ s :: r, v => .root v s :: r
  | .map m (some k) a :: r, v => .map (AMap.set m k v) none a :: r
  | .list xs a :: r, v => .list (xs ++ [v]) a :: r
  | fs, _ => fs

/-- A value is expected (not a map key). -/
def WantsValue : List Frame → Prop
  | .root _ seen :: _ => seen = true
  | .map _ (some _) _ :: _ => True
  | .list _ _ :: _ => True
  | _ => False

theorem setTop_receive (ft : UInt64 → Bytes) {fs : List Frame} {as} {r : Val} (v : Val) (a : Bytes) (h : WantsValue fs) :
    setTop ft ⟨fs, as, r⟩ v a = .ok ⟨receive fs v, addAnchor as a v, r⟩ := by
  match fs, h with
  | .root x b :: rest, h => simp only [WantsValue] at h; subst h; rfl
  | .map m (some k) n :: rest, _ => rfl
  | .list xs n :: rest, _ => rfl

theorem receive_ne {fs : List Frame} (v : Val) (h : WantsValue fs) : receive fs v ≠ [] := by
  match fs, h with
  | .root x b :: rest, h => nofun
  | .map m (some k) n :: rest, _ => nofun
  | .list xs n :: rest, _ => nofun

theorem wants_ne {fs : List Frame} (h : WantsValue fs) : ∃ f rest, fs = f :: rest := by
  match fs, h with
  | f :: rest, _ => exact ⟨f, rest, rfl⟩

section
variable (fo : FloatOps) (stale : Nat → Bool) (below : Bool)

theorem loop_go {fuel : Nat} {e : YEv} {es : List YEv} {b b' : B} {back : Bool}
    (h : step fo (stale es.length) b e = .ok (.go b' back)) (hne : b'.frames ≠ []) :
    loop fo stale below (fuel + 1) ⟨e :: es, false⟩ b = loop fo stale below fuel ⟨es, false⟩ b' := by
  rw [loop]
  simp only [parse, Bool.false_eq_true, if_false]
  rw [h]
  simp only []
  have : b'.frames.isEmpty = false := by
    cases hf : b'.frames with
    | nil => exact absurd hf hne
    | cons => rfl
  simp only [this, Bool.false_eq_true, if_false]

/-- A value is received. -/
def Gets (fs : List Frame) (as : List (Bytes × Val)) (res : Val) (evs : List YEv) (fs' : List Frame) (as' : List (Bytes × Val)) : Prop :=
  ∀ fuel es, loop fo stale below (fuel + evs.length) ⟨evs ++ es, false⟩ ⟨fs, as, res⟩ = loop fo stale below fuel ⟨es, false⟩ ⟨fs', as', res⟩

variable {fo stale below}

theorem Gets.nil {fs as res} : Gets fo stale below fs as res [] fs as := fun _ _ => rfl

theorem Gets.append {fs as res a fs₁ as₁ b fs₂ as₂} (h1 : Gets fo stale below fs as res a fs₁ as₁)
    (h2 : Gets fo stale below fs₁ as₁ res b fs₂ as₂) : Gets fo stale below fs as res (a ++ b) fs₂ as₂ := by
  intro fuel es
  have := h1 (fuel + b.length) (b ++ es)
  rw [List.length_append, List.append_assoc, show fuel + (a.length + b.length) = fuel + b.length + a.length by omega, this]
  exact h2 fuel es

theorem Gets.one {fs as res e fs' as'} {back : Bool} (h : ∀ n, step fo (stale n) ⟨fs, as, res⟩ e = .ok (.go ⟨fs', as', res⟩ back))
    (hne : fs' ≠ []) : Gets fo stale below fs as res [e] fs' as' := by
  intro fuel es
  exact loop_go fo stale below (h _) hne

theorem step_scalar {fs : List Frame} {as res a tag st t} {v : Val} {s : Bool} (hv : parseScalar fo s tag st t = .ok v)
    (h : WantsValue fs) : step fo s ⟨fs, as, res⟩ (.scalar a tag st t) = .ok (.go ⟨receive fs v, addAnchor as a v, res⟩ false) := by
  obtain ⟨f, rest, rfl⟩ := wants_ne h
  simp only [step, hv, Out.bind_ok, event, setTop_receive _ v a h, Out.pure_eq]

variable {Q : Bool → Prop}

theorem scalar_parse {tag st t v} (hm : ScalarMeans fo Q tag st t v) {s : Bool} (hs : Q s) : parseScalar fo s tag st t = .ok v := by
  cases hm with
  | binary h1 h2 => simp only [parseScalar, if_true, h1, Out.bind_ok]; rw [if_pos h2]; rfl
  | tagged h => simp only [parseScalar, Option.some.injEq, h, if_false, Option.isSome_some, if_true]; cases st <;> rfl
  | quoted h => rcases h with rfl | rfl | rfl | rfl <;> rfl
  | plain h hg => rcases h with rfl | rfl <;> simp [parseScalar, hg s hs]

theorem key_asString {v k} (h : KeyText fo v k) : asString fo.fltText v = .ok k := by
  cases h <;> rfl

theorem insertAll_unique {m : List (Bytes × Val)} {ws : List (Bytes × Val)} (h1 : AMap.Sorted m) (h2 : ∀ k, AMap.get m k = lastOf ws k) :
    m = insertAll [] ws := by
  refine AMap.ext h1 (Build.sorted_insertAll (m := []) trivial _) ?_
  intro k
  rw [h2, Build.get_insertAll (m := []) trivial]
  simp [AMap.get, lastOf]

theorem find_first (env : Env) (n : Bytes) : Rule.first.find env n = env.lookup n := rfl

/-- The events of a key. -/
theorem gets_key (hQ : ∀ n, Q (stale n)) {env k kv kt env₁} (hm : Means fo Q Rule.first env k kv env₁) (hk : KeyText fo kv kt)
    {m n fs as res} (ha : Agree as env) :
    Gets fo stale below (.map m none n :: fs) as res k.events (.map m (some kt) n :: fs) as := by
  cases hm with
  | scalar hs =>
    rename_i a tag st t
    refine Gets.one (back := false) (fun j => ?_) (by nofun)
    simp only [step, scalar_parse hs (hQ j), Out.bind_ok, event, setTop, setVal, key_asString hk, Out.pure_eq, Bool.false_eq_true, if_false]
  | alias h =>
    refine Gets.one (back := false) (fun j => ?_) (by nofun)
    rw [find_first] at h
    rename_i nm
    simp only [step, event, ha nm, h, setTop, setVal, key_asString hk, Out.bind_ok, Out.pure_eq, Bool.false_eq_true, if_false]
  | list _ => cases hk
  | map _ _ _ => cases hk

mutual
theorem gets_tree (hQ : ∀ n, Q (stale n)) : ∀ {env t v env'}, Means fo Q Rule.first env t v env' → ∀ {fs as res}, WantsValue fs → Agree as env →
    ∃ as', Agree as' env' ∧ Gets fo stale below fs as res t.events (receive fs v) as'
  | env, _, v, _, .scalar (a := a) hs, fs, as, res, h, ha => by
    refine ⟨addAnchor as a v, ha.add a v, Gets.one (back := false) (fun n => ?_) (receive_ne v h)⟩
    exact step_scalar (scalar_parse hs (hQ n)) h
  | env, _, v, _, .alias (n := n) hf, fs, as, res, h, ha => by
    refine ⟨as, ha, Gets.one (back := false) (fun j => ?_) (receive_ne v h)⟩
    obtain ⟨f, rest, rfl⟩ := wants_ne h
    rw [find_first] at hf
    simp only [step, event, ha n, hf, setTop_receive _ v [] h, Out.bind_ok, Out.pure_eq, addAnchor, if_true]
  | env, _, _, _, .list (a := a) (xs := xs) (vs := vs) (env' := env') hl, fs, as, res, h, ha => by
    obtain ⟨f, rest, rfl⟩ := wants_ne h
    obtain ⟨as', ha', hg⟩ := gets_list hQ hl (fs := f :: rest) (acc := []) (n := a) (res := res) ha
    refine ⟨addAnchor as' a (.list vs), ha'.add a _, ?_⟩
    rw [YTree.events]
    refine Gets.append (a := [_]) (Gets.one (back := false) (fs' := .list [] a :: f :: rest) (as' := as) (fun j => rfl) (by nofun)) ?_
    refine hg.append (Gets.one (back := false) (fun j => ?_) (receive_ne _ h))
    simp only [step, event, finish, Frame.result, Frame.anchor, setTop_receive _ _ _ h, List.nil_append, Out.bind_ok, Out.pure_eq]
  | env, _, _, _, .map (a := a) (ws := ws) (m := m) (env' := env') hl hs hk, fs, as, res, h, ha => by
    obtain ⟨f, rest, rfl⟩ := wants_ne h
    obtain ⟨as', ha', hg⟩ := gets_map hQ hl (fs := f :: rest) (m := []) (n := a) (res := res) ha
    have hm := insertAll_unique hs hk
    refine ⟨addAnchor as' a (.map m), ha'.add a _, ?_⟩
    rw [YTree.events]
    refine Gets.append (a := [_]) (Gets.one (back := false) (fs' := .map [] none a :: f :: rest) (as' := as) (fun j => rfl) (by nofun)) ?_
    refine hg.append (Gets.one (back := false) (fun j => ?_) (receive_ne _ h))
    simp only [step, event, finish, Frame.result, Frame.anchor, ← hm, setTop_receive _ _ _ h, Out.bind_ok, Out.pure_eq]
theorem gets_list (hQ : ∀ n, Q (stale n)) : ∀ {env xs vs env'}, MeansList fo Q Rule.first env xs vs env' → ∀ {fs acc n as res}, Agree as env →
    ∃ as', Agree as' env' ∧ Gets fo stale below (.list acc n :: fs) as res (eventsList xs) (.list (acc ++ vs) n :: fs) as'
  | _, _, _, _, .nil, fs, acc, n, as, res, ha => ⟨as, ha, by rw [List.append_nil]; exact Gets.nil⟩
  | _, _, _, _, .cons (v := v) (vs := vs) hx hxs, fs, acc, n, as, res, ha => by
    obtain ⟨as₁, ha₁, hg₁⟩ := gets_tree hQ hx (fs := .list acc n :: fs) (res := res) trivial ha
    obtain ⟨as₂, ha₂, hg₂⟩ := gets_list hQ hxs (fs := fs) (acc := acc ++ [v]) (n := n) (res := res) ha₁
    refine ⟨as₂, ha₂, ?_⟩
    rw [List.append_assoc] at hg₂
    exact hg₁.append hg₂
theorem gets_map (hQ : ∀ n, Q (stale n)) : ∀ {env kvs ws env'}, MeansMap fo Q Rule.first env kvs ws env' → ∀ {fs m n as res}, Agree as env →
    ∃ as', Agree as' env' ∧ Gets fo stale below (.map m none n :: fs) as res (eventsMap kvs) (.map (insertAll m ws) none n :: fs) as'
  | _, _, _, _, .nil, fs, m, n, as, res, ha => ⟨as, ha, Gets.nil⟩
  | _, _, _, _, .cons (kt := kt) (v := v) hk ht hx hxs, fs, m, n, as, res, ha => by
    have hgk := gets_key hQ hk ht (m := m) (n := n) (fs := fs) (res := res) (below := below) ha
    obtain ⟨as₁, ha₁, hg₁⟩ := gets_tree hQ hx (fs := .map m (some kt) n :: fs) (res := res) trivial ha
    obtain ⟨as₂, ha₂, hg₂⟩ := gets_map hQ hxs (fs := fs) (m := AMap.set m kt v) (n := n) (res := res) ha₁
    exact ⟨as₂, ha₂, hgk.append (hg₁.append hg₂)⟩
end

/-- A document is read as its value. -/
theorem loop_doc (hQ : ∀ n, Q (stale n)) {t v env} (hm : Means fo Q Rule.first [] t v env) (fuel : Nat) (es : List YEv) :
    ∃ as, loop fo stale below (fuel + (docEvents t).length) ⟨docEvents t ++ es, false⟩ B.init = some (⟨es, false⟩, .ok (⟨[], as, v⟩, false)) := by
  obtain ⟨as, _, hg⟩ := gets_tree hQ hm (fs := [.root .null true]) (res := .null) (below := below) rfl Agree.nil
  refine ⟨as, ?_⟩
  have h1 : Gets fo stale below [.root .null false] [] .null [.docStart] [.root .null true] [] :=
    Gets.one (back := false) (fun _ => rfl) (by nofun)
  have h2 := (h1.append hg) (fuel + 1) (.docEnd :: es)
  simp only [docEvents, List.length_cons, List.length_append, List.length_nil, List.singleton_append, List.cons_append, List.append_assoc,
    List.nil_append] at h2 ⊢
  rw [show fuel + (t.events.length + (0 + 1) + 1) = fuel + 1 + (t.events.length + 1) by omega, B.init, h2, loop]
  rfl

end

end Verif.Yaml
