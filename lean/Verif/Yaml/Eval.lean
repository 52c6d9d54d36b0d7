import Verif.Yaml.Read
/-!
# Reading any document

What reading comes to for every document, also for one that has no meaning.  Here `errno` is in the same state all the
time.
-/

namespace Verif.Yaml
open Verif Verif.JsonDrv
open Verif.Build (asString insertAll)

abbrev As := List (Bytes × Val)

mutual
/-- The value of a node and the anchors behind it. -/
def eval (fo : FloatOps) (s : Bool) (as : As) : YTree → Out (Val × As)
  | .scalar a tag st t => do
    let v ← parseScalar fo s tag st t
    return (v, addAnchor as a v)
  | .alias n =>
    match as.lookup n with
    | none => .throw .outOfRange
    | some v => .ok (v, as)
  | .list a xs => do
    let (vs, as) ← evalList fo s as xs
    return (.list vs, addAnchor as a (.list vs))
  | .map a kvs => do
    let (ws, as) ← evalMap fo s as kvs
    return (.map (insertAll [] ws), addAnchor as a (.map (insertAll [] ws)))
def evalList (fo : FloatOps) (s : Bool) (as : As) : List YTree → Out (List Val × As)
  | [] => .ok ([], as)
  | x :: xs => do
    let (v, as) ← eval fo s as x
    let (vs, as) ← evalList fo s as xs
    return (v :: vs, as)
def evalMap (fo : FloatOps) (s : Bool) (as : As) : List (YTree × YTree) → Out (List (Bytes × Val) × As)
  | [] => .ok ([], as)
  | (k, x) :: kvs => do
    let (kv, _) ← eval fo s as k
    let kt ← asString fo.fltText kv
    let (v, as) ← eval fo s as x
    let (ws, as) ← evalMap fo s as kvs
    return ((kt, v) :: ws, as)
end

section
variable {fo : FloatOps} {s : Bool} {below : Bool}

/-- Reading these events fails. -/
def Fails (fo : FloatOps) (s below : Bool) (fs : List Frame) (as : As) (res : Val) (evs : List YEv) (o : Out (B × Bool)) : Prop :=
  ∀ fuel es, ∃ r, loop fo (fun _ => s) below (fuel + evs.length) ⟨evs ++ es, false⟩ ⟨fs, as, res⟩ = some (r, o)

/-- Reading these events comes to `o`; `k` tells the handlers and anchors if it is a result. -/
def Comes (fo : FloatOps) (s below : Bool) (fs : List Frame) (as : As) (res : Val) (evs : List YEv) (o : Out α)
    (k : α → List Frame × As) : Prop :=
  match o with
  | .ok a => Gets fo (fun _ => s) below fs as res evs (k a).1 (k a).2
  | .throw x => Fails fo s below fs as res evs (.throw x)
  | .ub => Fails fo s below fs as res evs .ub

theorem Fails.append {fs as res a o} (h : Fails fo s below fs as res a o) (b : List YEv) : Fails fo s below fs as res (a ++ b) o := by
  intro fuel es
  obtain ⟨r, hr⟩ := h (fuel + b.length) (b ++ es)
  refine ⟨r, ?_⟩
  rw [List.length_append, List.append_assoc, show fuel + (a.length + b.length) = fuel + b.length + a.length by omega, hr]

theorem Fails.after {fs as res a fs₁ as₁ b o} (h1 : Gets fo (fun _ => s) below fs as res a fs₁ as₁)
    (h2 : Fails fo s below fs₁ as₁ res b o) : Fails fo s below fs as res (a ++ b) o := by
  intro fuel es
  obtain ⟨r, hr⟩ := h2 fuel es
  refine ⟨r, ?_⟩
  rw [List.length_append, List.append_assoc, show fuel + (a.length + b.length) = fuel + b.length + a.length by omega,
    h1 (fuel + b.length) (b ++ es)]
  exact hr

theorem Fails.one_throw {fs as res e x} (h : step fo s ⟨fs, as, res⟩ e = .throw x) : Fails fo s below fs as res [e] (.throw x) := by
  intro fuel es
  refine ⟨⟨es, false⟩, ?_⟩
  simp only [List.singleton_append, List.length_singleton, loop, parse, Bool.false_eq_true, if_false, h]

theorem Fails.one_ub {fs as res e} (h : step fo s ⟨fs, as, res⟩ e = .ub) : Fails fo s below fs as res [e] .ub := by
  intro fuel es
  refine ⟨⟨es, false⟩, ?_⟩
  simp only [List.singleton_append, List.length_singleton, loop, parse, Bool.false_eq_true, if_false, h]

/-- One part after the other. -/
theorem Comes.bind {α β : Type} {fs as res a b} {o : Out α} {k : α → List Frame × As} {f : α → Out β} {k' : β → List Frame × As}
    (h1 : Comes fo s below fs as res a o k) (h2 : ∀ x, o = .ok x → Comes fo s below (k x).1 (k x).2 res b (f x) k') :
    Comes fo s below fs as res (a ++ b) (o >>= f) k' := by
  cases o with
  | ok x =>
    have h := h2 x rfl
    show Comes fo s below fs as res (a ++ b) (f x) k'
    cases hf : f x with
    | ok y => rw [hf] at h; exact Gets.append h1 h
    | throw e => rw [hf] at h; exact Fails.after h1 h
    | ub => rw [hf] at h; exact Fails.after h1 h
  | throw e => exact Fails.append h1 b
  | ub => exact Fails.append h1 b

theorem Comes.ok {α : Type} {fs as res evs} {x : α} {k : α → List Frame × As} (h : Gets fo (fun _ => s) below fs as res evs (k x).1 (k x).2) :
    Comes fo s below fs as res evs (.ok x) k := h

theorem step_scalar_fail {fs : List Frame} {as res a tag st t} :
    (∀ x, parseScalar fo s tag st t = .throw x → step fo s ⟨fs, as, res⟩ (.scalar a tag st t) = .throw x) ∧
    (parseScalar fo s tag st t = .ub → step fo s ⟨fs, as, res⟩ (.scalar a tag st t) = .ub) := by
  constructor
  · intro x h; simp only [step, h, Out.bind_throw]
  · intro h; simp only [step, h, Out.bind_ub]

/-- A scalar as a key. -/
theorem key_scalar {m n fs as res a tag st t} :
    Comes fo s below (.map m none n :: fs) as res (YTree.scalar a tag st t).events
      (do let (kv, _) ← eval fo s as (.scalar a tag st t); asString fo.fltText kv) (fun kt => (.map m (some kt) n :: fs, as)) := by
  simp only [eval, YTree.events]
  cases hv : parseScalar fo s tag st t with
  | throw x => exact Fails.one_throw (step_scalar_fail.1 x hv)
  | ub => exact Fails.one_ub (step_scalar_fail.2 hv)
  | ok v =>
    simp only [Out.bind_ok, Out.pure_eq]
    cases hk : asString fo.fltText v with
    | ok kt =>
      refine Gets.one (back := false) (fun _ => ?_) (by nofun)
      simp only [step, hv, Out.bind_ok, event, setTop, setVal, hk, Out.pure_eq, Bool.false_eq_true, if_false]
    | throw x =>
      refine Fails.one_throw ?_
      simp only [step, hv, Out.bind_ok, event, setTop, setVal, hk, Out.bind_throw]
    | ub =>
      refine Fails.one_ub ?_
      simp only [step, hv, Out.bind_ok, event, setTop, setVal, hk, Out.bind_ub]

theorem key_alias {m n fs as res nm} :
    Comes fo s below (.map m none n :: fs) as res (YTree.alias nm).events
      (do let (kv, _) ← eval fo s as (.alias nm); asString fo.fltText kv) (fun kt => (.map m (some kt) n :: fs, as)) := by
  simp only [eval, YTree.events]
  cases hv : as.lookup nm with
  | none =>
    refine Fails.one_throw ?_
    simp only [step, event, hv, Out.bind_throw]
  | some v =>
    simp only [Out.bind_ok]
    cases hk : asString fo.fltText v with
    | ok kt =>
      refine Gets.one (back := false) (fun _ => ?_) (by nofun)
      simp only [step, event, hv, setTop, setVal, hk, Out.bind_ok, Out.pure_eq, Bool.false_eq_true, if_false]
    | throw x =>
      refine Fails.one_throw ?_
      simp only [step, event, hv, setTop, setVal, hk, Out.bind_throw]
    | ub =>
      refine Fails.one_ub ?_
      simp only [step, event, hv, setTop, setVal, hk, Out.bind_ub]

theorem open_list {fs as res a} (h : fs ≠ []) : Gets fo (fun _ => s) below fs as res [.seqStart a] (.list [] a :: fs) as := by
  obtain ⟨f, rest, rfl⟩ := List.exists_cons_of_ne_nil h
  exact Gets.one (back := false) (fun _ => rfl) (by nofun)

theorem open_map {fs as res a} (h : fs ≠ []) : Gets fo (fun _ => s) below fs as res [.mapStart a] (.map [] none a :: fs) as := by
  obtain ⟨f, rest, rfl⟩ := List.exists_cons_of_ne_nil h
  exact Gets.one (back := false) (fun _ => rfl) (by nofun)

mutual
theorem comes_tree : ∀ (t : YTree) {fs as res}, WantsValue fs →
    Comes fo s below fs as res t.events (eval fo s as t) (fun p => (receive fs p.1, p.2))
  | .scalar a tag st t, fs, as, res, h => by
    simp only [eval, YTree.events]
    cases hv : parseScalar fo s tag st t with
    | throw x => exact Fails.one_throw (step_scalar_fail.1 x hv)
    | ub => exact Fails.one_ub (step_scalar_fail.2 hv)
    | ok v => exact Gets.one (back := false) (fun _ => step_scalar hv h) (receive_ne v h)
  | .alias nm, fs, as, res, h => by
    obtain ⟨f, rest, rfl⟩ := wants_ne h
    simp only [eval, YTree.events]
    cases hv : as.lookup nm with
    | none =>
      refine Fails.one_throw ?_
      simp only [step, event, hv, Out.bind_throw]
    | some v =>
      refine Gets.one (back := false) (fun _ => ?_) (receive_ne v h)
      simp only [step, event, hv, setTop_receive _ v [] h, Out.bind_ok, Out.pure_eq, addAnchor, if_true]
  | .list a xs, fs, as, res, h => by
    have hne : fs ≠ [] := by obtain ⟨f, rest, rfl⟩ := wants_ne h; nofun
    rw [YTree.events, eval]
    refine Comes.bind (o := .ok ()) (k := fun _ => (.list [] a :: fs, as)) (a := [.seqStart a]) (f := fun _ => _) (open_list hne) (fun _ _ => ?_)
    refine Comes.bind (comes_list xs (fs := fs) (acc := []) (n := a) (as := as) (res := res)) (fun p _ => ?_)
    obtain ⟨vs, as'⟩ := p
    refine Gets.one (back := false) (fun _ => ?_) (receive_ne _ h)
    obtain ⟨f, rest, rfl⟩ := wants_ne h
    simp only [step, event, finish, Frame.result, Frame.anchor, setTop_receive _ _ _ h, List.nil_append, Out.bind_ok, Out.pure_eq]
  | .map a kvs, fs, as, res, h => by
    have hne : fs ≠ [] := by obtain ⟨f, rest, rfl⟩ := wants_ne h; nofun
    rw [YTree.events, eval]
    refine Comes.bind (o := .ok ()) (k := fun _ => (.map [] none a :: fs, as)) (a := [.mapStart a]) (f := fun _ => _) (open_map hne) (fun _ _ => ?_)
    refine Comes.bind (comes_map kvs (fs := fs) (m := []) (n := a) (as := as) (res := res)) (fun p _ => ?_)
    obtain ⟨vs, as'⟩ := p
    refine Gets.one (back := false) (fun _ => ?_) (receive_ne _ h)
    obtain ⟨f, rest, rfl⟩ := wants_ne h
    simp only [step, event, finish, Frame.result, Frame.anchor, setTop_receive _ _ _ h, Out.bind_ok, Out.pure_eq]
theorem comes_list : ∀ (xs : List YTree) {fs acc n as res},
    Comes fo s below (.list acc n :: fs) as res (eventsList xs) (evalList fo s as xs) (fun p => (.list (acc ++ p.1) n :: fs, p.2))
  | [], fs, acc, n, as, res => by
    rw [evalList]; refine Comes.ok ?_; rw [List.append_nil]; exact Gets.nil
  | x :: xs, fs, acc, n, as, res => by
    rw [evalList, eventsList]
    refine Comes.bind (comes_tree x (fs := .list acc n :: fs) (as := as) (res := res) trivial) (fun p _ => ?_)
    obtain ⟨v, as₁⟩ := p
    have h := comes_list xs (fs := fs) (acc := acc ++ [v]) (n := n) (as := as₁) (res := res)
    simp only [receive]
    have e : eventsList xs = eventsList xs ++ [] := (List.append_nil _).symm
    rw [e]
    refine Comes.bind h (fun q _ => ?_)
    obtain ⟨vs, as₂⟩ := q
    refine Comes.ok ?_
    simp only [List.append_assoc, List.singleton_append]
    exact Gets.nil
theorem comes_map : ∀ (kvs : List (YTree × YTree)) {fs m n as res},
    Comes fo s below (.map m none n :: fs) as res (eventsMap kvs) (evalMap fo s as kvs) (fun p => (.map (insertAll m p.1) none n :: fs, p.2))
  | [], fs, m, n, as, res => by
    rw [evalMap]; refine Comes.ok ?_; exact Gets.nil
  | (k, x) :: kvs, fs, m, n, as, res => by
    rw [evalMap, eventsMap]
    have hkey := comes_key k (fs := fs) (m := m) (n := n) (as := as) (res := res)
    have e : (do
        let (kv, _) ← eval fo s as k
        let kt ← asString fo.fltText kv
        let (v, as) ← eval fo s as x
        let (ws, as) ← evalMap fo s as kvs
        return ((kt, v) :: ws, as)) = ((do let (kv, _) ← eval fo s as k; asString fo.fltText kv) >>= fun kt => do
          let (v, as) ← eval fo s as x
          let (ws, as) ← evalMap fo s as kvs
          return ((kt, v) :: ws, as)) := by
      cases eval fo s as k <;> rfl
    rw [e]
    refine Comes.bind hkey (fun kt _ => ?_)
    refine Comes.bind (comes_tree x (fs := .map m (some kt) n :: fs) (as := as) (res := res) trivial) (fun p _ => ?_)
    obtain ⟨v, as₁⟩ := p
    have h := comes_map kvs (fs := fs) (m := AMap.set m kt v) (n := n) (as := as₁) (res := res)
    simp only [receive]
    have e : eventsMap kvs = eventsMap kvs ++ [] := (List.append_nil _).symm
    rw [e]
    refine Comes.bind h (fun q _ => ?_)
    exact Comes.ok Gets.nil
theorem comes_key : ∀ (k : YTree) {fs m n as res},
    Comes fo s below (.map m none n :: fs) as res k.events (do let (kv, _) ← eval fo s as k; asString fo.fltText kv)
      (fun kt => (.map m (some kt) n :: fs, as))
  | .scalar a tag st t, fs, m, n, as, res => key_scalar
  | .alias nm, fs, m, n, as, res => key_alias
  | .list a xs, fs, m, n, as, res => by
    have e : ∀ (o : Out (List Val × As)), (do
        let (kv, _) ← (do let (vs, as) ← o; return (Val.list vs, addAnchor as a (.list vs)))
        asString fo.fltText kv) = (o >>= fun p => asString fo.fltText (.list p.1)) := by
      intro o; cases o <;> rfl
    rw [YTree.events, eval, e]
    refine Comes.bind (o := .ok ()) (k := fun _ => (.list [] a :: .map m none n :: fs, as)) (a := [.seqStart a]) (f := fun _ =>
      evalList fo s as xs >>= fun p => asString fo.fltText (.list p.1)) (open_list (by nofun)) (fun _ _ => ?_)
    refine Comes.bind (comes_list xs (fs := .map m none n :: fs) (acc := []) (n := a) (as := as) (res := res)) (fun p _ => ?_)
    exact Fails.one_throw rfl
  | .map a kvs, fs, m, n, as, res => by
    have e : ∀ (o : Out (List (Bytes × Val) × As)), (do
        let (kv, _) ← (do let (ws, as) ← o; return (Val.map (insertAll [] ws), addAnchor as a (.map (insertAll [] ws))))
        asString fo.fltText kv) = (o >>= fun p => asString fo.fltText (.map (insertAll [] p.1))) := by
      intro o; cases o <;> rfl
    rw [YTree.events, eval, e]
    refine Comes.bind (o := .ok ()) (k := fun _ => (.map [] none a :: .map m none n :: fs, as)) (a := [.mapStart a]) (f := fun _ =>
      evalMap fo s as kvs >>= fun p => asString fo.fltText (.map (insertAll [] p.1))) (open_map (by nofun)) (fun _ _ => ?_)
    refine Comes.bind (comes_map kvs (fs := .map m none n :: fs) (m := []) (n := a) (as := as) (res := res)) (fun p _ => ?_)
    exact Fails.one_throw rfl
end

end

/-! ## A value that is read is the meaning -/

theorem parse_scalarMeans {fo : FloatOps} {s : Bool} {tag st t v} (h : parseScalar fo s tag st t = .ok v) :
    ScalarMeans fo (· = s) tag st t v := by
  unfold parseScalar at h
  split at h
  · rename_i ht
    subst ht
    cases hd : B64.decode t with
    | ok d =>
      rw [hd, Out.bind_ok] at h
      split at h
      · rename_i hl; cases h; exact .binary hd hl
      · cases h
    | throw => rw [hd] at h; cases h
    | ub => rw [hd] at h; cases h
  · rename_i ht
    cases tag with
    | some tg =>
      have hb : tg ≠ binaryTag := fun e => ht (by rw [e])
      cases st <;> (cases h; exact .tagged hb)
    | none =>
      cases st with
      | any => cases h; exact .plain (.inr rfl) (fun _ e => by subst e; rfl)
      | plain => cases h; exact .plain (.inl rfl) (fun _ e => by subst e; rfl)
      | single => cases h; exact .quoted (by simp)
      | double => cases h; exact .quoted (by simp)
      | literal => cases h; exact .quoted (by simp)
      | folded => cases h; exact .quoted (by simp)

theorem asString_key {fo : FloatOps} {v k} (h : asString fo.fltText v = .ok k) : KeyText fo v k := by
  cases v with
  | bool b => cases b <;> (cases h; constructor)
  | null => cases h; exact .null
  | int i => cases h; exact .int
  | uint u => cases h; exact .uint
  | flt d => cases h; exact .flt
  | str t => cases h; exact .str
  | list _ => cases h
  | map _ => cases h
  | blob _ => cases h

mutual
theorem eval_means {fo : FloatOps} {s : Bool} : ∀ (t : YTree) {as env v as'}, Agree as env → eval fo s as t = .ok (v, as') →
    ∃ env', Means fo (· = s) Rule.first env t v env' ∧ Agree as' env'
  | .scalar a tag st t, as, env, v, as', ha, h => by
    rw [eval, Out.bind_eq_ok] at h
    obtain ⟨w, h1, h2⟩ := h
    cases h2
    exact ⟨_, .scalar (parse_scalarMeans h1), ha.add a _⟩
  | .alias n, as, env, v, as', ha, h => by
    rw [eval] at h
    split at h
    · cases h
    · rename_i w hw
      cases h
      exact ⟨_, .alias (by rw [find_first, ← ha n, hw]), ha⟩
  | .list a xs, as, env, v, as', ha, h => by
    rw [eval, Out.bind_eq_ok] at h
    obtain ⟨⟨vs, as₁⟩, h1, h2⟩ := h
    cases h2
    obtain ⟨env₁, hm, ha₁⟩ := evalList_means xs ha h1
    exact ⟨_, .list hm, ha₁.add a _⟩
  | .map a kvs, as, env, v, as', ha, h => by
    rw [eval, Out.bind_eq_ok] at h
    obtain ⟨⟨ws, as₁⟩, h1, h2⟩ := h
    cases h2
    obtain ⟨env₁, hm, ha₁⟩ := evalMap_means kvs ha h1
    refine ⟨_, .map hm (Build.sorted_insertAll (m := []) trivial _) (fun k => ?_), ha₁.add a _⟩
    rw [Build.get_insertAll (m := []) trivial]
    simp [AMap.get, lastOf]
theorem evalList_means {fo : FloatOps} {s : Bool} : ∀ (xs : List YTree) {as env vs as'}, Agree as env → evalList fo s as xs = .ok (vs, as') →
    ∃ env', MeansList fo (· = s) Rule.first env xs vs env' ∧ Agree as' env'
  | [], as, env, vs, as', ha, h => by
    rw [evalList] at h; cases h; exact ⟨_, .nil, ha⟩
  | x :: xs, as, env, vs, as', ha, h => by
    rw [evalList, Out.bind_eq_ok] at h
    obtain ⟨⟨v, as₁⟩, h1, h2⟩ := h
    rw [Out.bind_eq_ok] at h2
    obtain ⟨⟨vs, as₂⟩, h2, h3⟩ := h2
    cases h3
    obtain ⟨env₁, hm, ha₁⟩ := eval_means x ha h1
    obtain ⟨env₂, hm₂, ha₂⟩ := evalList_means xs ha₁ h2
    exact ⟨_, .cons hm hm₂, ha₂⟩
theorem evalMap_means {fo : FloatOps} {s : Bool} : ∀ (kvs : List (YTree × YTree)) {as env ws as'}, Agree as env →
    evalMap fo s as kvs = .ok (ws, as') → ∃ env', MeansMap fo (· = s) Rule.first env kvs ws env' ∧ Agree as' env'
  | [], as, env, vs, as', ha, h => by
    rw [evalMap] at h; cases h; exact ⟨_, .nil, ha⟩
  | (k, x) :: kvs, as, env, vs, as', ha, h => by
    rw [evalMap, Out.bind_eq_ok] at h
    obtain ⟨⟨kv, as₀⟩, h0, h⟩ := h
    rw [Out.bind_eq_ok] at h
    obtain ⟨kt, hkt, h⟩ := h
    rw [Out.bind_eq_ok] at h
    obtain ⟨⟨v, as₁⟩, h1, h2⟩ := h
    rw [Out.bind_eq_ok] at h2
    obtain ⟨⟨ws, as₂⟩, h2, h3⟩ := h2
    cases h3
    obtain ⟨env₀, hm₀, _⟩ := eval_means k ha h0
    obtain ⟨env₁, hm, ha₁⟩ := eval_means x ha h1
    obtain ⟨env₂, hm₂, ha₂⟩ := evalMap_means kvs ha₁ h2
    exact ⟨_, .cons hm₀ (asString_key hkt) hm hm₂, ha₂⟩
end

/-! ## Other rules for anchors -/

theorem define_keys (env : Env) (a : Bytes) (v : Val) : (define env a v).map (·.1) = env.map (·.1) ++ (if a = [] then [] else [a]) := by
  unfold define; split <;> simp

theorem key_env {fo Q r env k kv env₁ kt} (hm : Means fo Q r env k kv env₁) (hk : KeyText fo kv kt) (ha : k.anchors = []) : env₁ = env := by
  cases hm with
  | scalar h =>
    simp only [YTree.anchors] at ha
    split at ha
    · rename_i h0; subst h0; simp [define]
    · cases ha
  | alias _ => rfl
  | list _ => cases hk
  | map _ _ _ => cases hk

theorem lookup_reverse {env : Env} (h : (env.map (·.1)).Nodup) (n : Bytes) : env.reverse.lookup n = env.lookup n := by
  induction env with
  | nil => rfl
  | cons p env ih =>
    obtain ⟨k, v⟩ := p
    simp only [List.map_cons, List.nodup_cons] at h
    rw [List.reverse_cons, lookup_append, ih h.2, List.lookup_cons]
    by_cases hk : n = k
    · subst hk
      have : env.lookup n = none := by
        rw [List.lookup_eq_none_iff]
        intro q hq
        simp only [beq_eq_false_iff_ne, bne_iff_ne, ne_eq]
        intro e
        exact h.1 (by rw [e]; exact List.mem_map_of_mem hq)
      simp [this]
    · have : (n == k) = false := by simp [hk]
      simp [List.lookup_cons, this]

theorem find_any {env : Env} (h : (env.map (·.1)).Nodup) (r r' : Rule) (n : Bytes) : r.find env n = r'.find env n := by
  have := lookup_reverse h n
  simp only [Rule.find]
  cases r.latest <;> cases r'.latest <;> simp [this]

theorem nodup_left {a b : List Bytes} (h : (a ++ b).Nodup) : a.Nodup := (List.nodup_append.1 h).1

mutual
/-- Where no anchor is defined twice and none on a key, the rules do not matter. -/
theorem means_rule {fo Q} (r r' : Rule) : ∀ {env t v env'}, Means fo Q r env t v env' → t.NoKeyAnchor →
    (env.map (·.1) ++ t.anchors).Nodup → Means fo Q r' env t v env' ∧ env'.map (·.1) = env.map (·.1) ++ t.anchors
  | env, _, v, _, .scalar hs, _, _ => ⟨.scalar hs, define_keys ..⟩
  | env, _, v, _, .alias (n := n) hf, _, hn =>
    ⟨.alias (by rw [find_any (nodup_left hn) r' r]; exact hf), by simp [YTree.anchors]⟩
  | env, _, _, _, .list hl, hk, hn => by
    rw [YTree.anchors, ← List.append_assoc] at hn
    obtain ⟨h1, h2⟩ := meansList_rule r r' hl hk (nodup_left hn)
    exact ⟨.list h1, by rw [define_keys, h2, YTree.anchors, List.append_assoc]⟩
  | env, _, _, _, .map hl hs hg, hk, hn => by
    rw [YTree.anchors, ← List.append_assoc] at hn
    obtain ⟨h1, h2⟩ := meansMap_rule r r' hl hk (nodup_left hn)
    exact ⟨.map h1 hs hg, by rw [define_keys, h2, YTree.anchors, List.append_assoc]⟩
theorem meansList_rule {fo Q} (r r' : Rule) : ∀ {env xs vs env'}, MeansList fo Q r env xs vs env' → NoKeyAnchorList xs →
    (env.map (·.1) ++ anchorsList xs).Nodup → MeansList fo Q r' env xs vs env' ∧ env'.map (·.1) = env.map (·.1) ++ anchorsList xs
  | _, _, _, _, .nil, _, _ => ⟨.nil, by simp [anchorsList]⟩
  | _, _, _, _, .cons hx hxs, hk, hn => by
    rw [anchorsList, ← List.append_assoc] at hn
    obtain ⟨h1, h2⟩ := means_rule r r' hx hk.1 (nodup_left hn)
    rw [← h2] at hn
    obtain ⟨h3, h4⟩ := meansList_rule r r' hxs hk.2 hn
    exact ⟨.cons h1 h3, by rw [h4, h2, anchorsList, List.append_assoc]⟩
theorem meansMap_rule {fo Q} (r r' : Rule) : ∀ {env kvs ws env'}, MeansMap fo Q r env kvs ws env' → NoKeyAnchorMap kvs →
    (env.map (·.1) ++ anchorsMap kvs).Nodup → MeansMap fo Q r' env kvs ws env' ∧ env'.map (·.1) = env.map (·.1) ++ anchorsMap kvs
  | _, _, _, _, .nil, _, _ => ⟨.nil, by simp [anchorsMap]⟩
  | _, _, _, _, .cons hkk ht hx hxs, hk, hn => by
    obtain ⟨ka, kk, kx, krest⟩ := hk
    have he := key_env hkk ht ka
    subst he
    simp only [ite_self] at hx
    rw [anchorsMap, ka, List.nil_append, ← List.append_assoc] at hn
    obtain ⟨h0, _⟩ := means_rule r r' hkk kk (by rw [ka, List.append_nil]; exact nodup_left (nodup_left hn))
    obtain ⟨h1, h2⟩ := means_rule r r' hx kx (nodup_left hn)
    rw [← h2] at hn
    obtain ⟨h3, h4⟩ := meansMap_rule r r' hxs krest hn
    exact ⟨.cons h0 ht (by rw [ite_self]; exact h1) h3, by rw [h4, h2, anchorsMap, ka, List.nil_append, List.append_assoc]⟩
end

end Verif.Yaml
