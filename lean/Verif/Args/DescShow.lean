import Verif.Args.DescProps
/-!
# C104: the description shows what was set
-/

namespace Verif.Args
open Verif JsonDrv Schema

/-! ## Specification -/

/-- The argument of a description with this key path. -/
def hasPath (t : Bytes) (x : Val) : Bool :=
  match getKey? x kKeypath with
  | some (.str s) => s = t
  | _ => false

/-- What a description says of the option or argument with this key path. -/
def entryIn (d : Val) (t : Bytes) : Option Val :=
  (AMap.get (mapIn d kOptions) t).or ((listIn d kArguments).find? (hasPath t))

/-- One key and its value. -/
def one (k' : Bytes) (v : Val) (k : Bytes) : Option Val := if k = k' then some v else none

/-- The type is set only if there was none. -/
def typeIfNone (x : Option Val) (t : Bytes) (k : Bytes) : Option Val :=
  match says x kType with
  | some .null => one kType (.str t) k
  | _ => none

/-- The choices after adding one; nothing changes if an equal value is there. -/
def choicesWith (p : Nat) (x : Option Val) (v : Val) : Option Val :=
  match says x kEnum with
  | none => some (.list [v])
  | some (.list xs) => if xs.any (fun y => veq p y v) then none else some (.list (xs ++ [v]))
  | _ => none

/-- The word for a type. -/
def shownType : Ty → Val
  | .null => .null
  | .bool => .str wBoolean
  | .int | .uint => .str wInteger
  | .flt => .str wNumber
  | .str => .str wString
  | _ => .str wNull

/-- What a setter changes in the description `x` of its option: the new value of a key, `none` if it stays as it was. -/
def Setter.shown (p : Nat) (x : Option Val) : Setter → Bytes → Option Val
  | .title t => one kTitle (.str t)
  | .action a => fun k => match actionWord a with | .ok t => one kAction (.str t) k | _ => none
  | .actionName t => one kAction (.str t)
  | .type t => one kType (shownType t)
  | .typeName t => one kType (if t = wNull then .null else .str t)
  | .const v => one kConst v
  | .default v => one kDefault v
  | .env t => one kEnv (.str t)
  | .minimum v => fun k => (one kMinimum v k).or (typeIfNone x wNumber k)
  | .maximum v => fun k => (one kMaximum v k).or (typeIfNone x wNumber k)
  | .addChoice v => fun k => if k = kEnum then choicesWith p x v else none
  | .setChoices vs => one kEnum (.list vs)
  | .required _ => one kRequired (.bool true)
  | .help t => one kDescription (.str t)
  | .pattern t => fun k => (one kPattern (.str t) k).or (typeIfNone x wString k)
  | .maxLength n => fun k => (one kMaxLength (.uint n.toUInt64) k).or (typeIfNone x wString k)
  | .minLength n => fun k => (one kMinLength (.uint n.toUInt64) k).or (typeIfNone x wString k)
  | .minArgs n => fun k => (one kMinArgs (.uint n.toUInt64) k).or (if n > 0 then one kRequired (.bool true) k else none)
  | .maxArgs n => one kMaxArgs (.uint n.toUInt64)
  | .numArgs n => fun k => ((one kMaxArgs (.uint n.toUInt64) k).or (one kMinArgs (.uint n.toUInt64) k)).or (if n > 0 then one kRequired (.bool true) k else none)
  | .advanced b => one kAdvanced (.bool b)

/-- A new option in a description: these keys, and no other. -/
def newShown (t : Bytes) (short : Int32) (long help title : Bytes) (action : Bytes) : Bytes → Option Val := fun k =>
  if k = kKeypath then some (.str t)
  else if k = kShortOption then (if short > 0 then some (.str [(toChar short).toUInt8]) else none)
  else if k = kLongOption then (if long ≠ [] then some (.str long) else none)
  else if k = kDescription then some (.str help)
  else if k = kTitle then some (.str title)
  else if k = kAction then some (.str action)
  else if k = kRequired then some (.bool false)
  else if k = kAdvanced then some (.bool false)
  else if k = kType then some .null
  else none

/-! ## Descriptions of entries -/

/-- What the description of an entry with these settings says. -/
def view (o : Opt) (c : Config) (k : Bytes) : Option Val :=
  (extra { o with cfg := c } (match actionWord c.action with | .ok t => t | _ => []) k).getD (optGet c k)

theorem view_describes {w : World} {o : Opt} {c : Config} (hf : FineOpt w c.opt) {d : Val} (h : describeOpt { o with cfg := c } = .ok d) (k : Bytes) :
    getKey? d k = view o c k := by
  obtain ⟨m, hm, hs, _⟩ := hf
  obtain ⟨a, ha⟩ := describeOpt_action h
  obtain ⟨D, h1, _, h3⟩ := describeOpt_ok (o := { o with cfg := c }) hm hs ha
  rw [h1] at h; cases h
  show AMap.get D k = _
  rw [h3]
  unfold view optGet
  dsimp only at ha
  rw [ha, hm]
  rfl

/-- The settings `c'` are shown as `c` with these changes. -/
def Shows (o : Opt) (c c' : Config) (E : Bytes → Option Val) : Prop := ∀ k, view o c' k = (E k).or (view o c k)

theorem Shows.trans {o : Opt} {c c1 c2 : Config} {E F : Bytes → Option Val} (h : Shows o c c1 E) (h' : Shows o c1 c2 F) :
    Shows o c c2 fun k => (F k).or (E k) := fun k => by rw [h' k, h k, Option.or_assoc]

theorem Shows.refl (o : Opt) (c : Config) : Shows o c c fun _ => none := fun _ => rfl

theorem shows_set {w : World} {o : Opt} {c : Config} (hf : FineOpt w c.opt) {k' : Bytes} (v : Val)
    (hk : ∀ o a, extra o a k' = none) : Shows o c (setOpt c k' v) (one k' v) := by
  intro k
  obtain ⟨m, hm, _⟩ := hf
  have ho : ∀ k, optGet (setOpt c k' v) k = if k = k' then some v else optGet c k := by
    intro k
    unfold optGet setOpt
    rw [hm]
    show AMap.get (AMap.set m k' v) k = _
    rw [get_set]; rfl
  have hx : extra { o with cfg := setOpt c k' v } = extra { o with cfg := c } := rfl
  unfold view one
  rw [ho, hx]
  by_cases e : k = k'
  · subst e
    rw [if_pos rfl, if_pos rfl, hk]; rfl
  · rw [if_neg e, if_neg e]; rfl

theorem shows_type (o : Opt) (c : Config) (t : Ty) : Shows o c { c with ty := t } (one kType (typeVal t)) := by
  intro k
  unfold view one
  by_cases e : k = kType
  · subst e; rfl
  · rw [if_neg e]
    show _ = Option.getD _ _
    unfold extra
    simp only [if_neg e]
    rfl

theorem shows_required (o : Opt) (c : Config) (b : Bool) : Shows o c { c with required := b } (one kRequired (.bool b)) := by
  intro k
  unfold view one
  by_cases e : k = kRequired
  · subst e; rfl
  · rw [if_neg e]
    show _ = Option.getD _ _
    unfold extra
    simp only [if_neg e]
    rfl

theorem shows_advanced (o : Opt) (c : Config) (b : Bool) : Shows o c { c with advanced := b } (one kAdvanced (.bool b)) := by
  intro k
  unfold view one
  by_cases e : k = kAdvanced
  · subst e; rfl
  · rw [if_neg e]
    show _ = Option.getD _ _
    unfold extra
    simp only [if_neg e]
    rfl

theorem shows_action (o : Opt) (c : Config) (a : Action) {t : Bytes} (ht : actionWord a = .ok t) : Shows o c { c with action := a } (one kAction (.str t)) := by
  intro k
  unfold view one
  by_cases e : k = kAction
  · subst e
    dsimp only
    rw [ht]; rfl
  · rw [if_neg e]
    show _ = Option.getD _ _
    unfold extra
    simp only [if_neg e]
    rfl

theorem actionWord_actionOf {t : Bytes} (h : actionOf t ≠ .unknown) : actionWord (actionOf t) = .ok t := by
  by_cases h0 : t = wStore
  · rw [h0]; rfl
  by_cases h1 : t = wStoreConst
  · rw [h1]; rfl
  by_cases h2 : t = wStoreTrue
  · rw [h2]; rfl
  by_cases h3 : t = wStoreFalse
  · rw [h3]; rfl
  by_cases h4 : t = wAppend
  · rw [h4]; rfl
  by_cases h5 : t = wCount
  · rw [h5]; rfl
  by_cases h6 : t = wHelp
  · rw [h6]; rfl
  by_cases h7 : t = wAdvHelp
  · rw [h7]; rfl
  by_cases h8 : t = wConfig
  · rw [h8]; rfl
  by_cases h9 : t = wConfigJson
  · rw [h9]; rfl
  by_cases h10 : t = wConfigYaml
  · rw [h10]; rfl
  by_cases h11 : t = wConfigPlist
  · rw [h11]; rfl
  by_cases h12 : t = wConfigPrint
  · rw [h12]; rfl
  exact absurd (by rw [actionOf, if_neg h0, if_neg h1, if_neg h2, if_neg h3, if_neg h4, if_neg h5, if_neg h6, if_neg h7, if_neg h8, if_neg h9, if_neg h10, if_neg h11, if_neg h12]) h

theorem typeVal_shown (t : Ty) : typeVal t = shownType t := by cases t <;> rfl

theorem typeOfWord_shown {t : Bytes} {ty : Ty} (h : typeOfWord t = .ok ty) : typeVal ty = if t = wNull then .null else .str t := by
  unfold typeOfWord at h
  repeat' split at h
  all_goals first
    | (cases h; done)
    | (rename_i h1; subst h1; cases h; rfl)

theorem shows_defaultType {o : Opt} {c : Config} {x : Option Val} (hx : says x kType = view o c kType) {t : Ty} {wd : Bytes}
    (ht : (t = .flt ∧ wd = wNumber) ∨ (t = .str ∧ wd = wString)) : Shows o c (defaultType c t) (typeIfNone x wd) := by
  have hv : view o c kType = some (typeVal c.ty) := rfl
  unfold typeIfNone
  rw [hx, hv]
  by_cases e : c.ty = .null
  · have hd : defaultType c t = { c with ty := t } := by unfold defaultType; rw [if_pos e]
    rw [hd, e]
    have := shows_type o c t
    rcases ht with ⟨rfl, rfl⟩ | ⟨rfl, rfl⟩ <;> exact this
  · have hd : defaultType c t = c := by unfold defaultType; rw [if_neg e]
    rw [hd]
    have hs : ∃ s, typeVal c.ty = .str s := by
      unfold typeVal; rw [if_neg e]; exact ⟨_, rfl⟩
    obtain ⟨s, hs⟩ := hs
    rw [hs]
    exact .refl o c

theorem shows_setter {w : World} {o : Opt} {c : Config} (hf : FineOpt w c.opt) {x : Option Val} (hx : ∀ k, says x k = view o c k) (p : Nat) (f : Setter)
    (hr : (f.run p c).2 = .ok ()) : Shows o c (f.run p c).1 (f.shown p x) := by
  have hdef : ∀ t wd k' v, ((t = .flt ∧ wd = wNumber) ∨ (t = .str ∧ wd = wString)) → (∀ o a, extra o a k' = none) →
      Shows o c (setOpt (defaultType c t) k' v) fun k => (one k' v k).or (typeIfNone x wd k) := by
    intro t wd k' v ht hk
    exact (shows_defaultType (hx kType) ht).trans (shows_set (w := w) (c := defaultType c t) hf v hk)
  have hreq : ∀ n : UInt32, Shows o c (setMinArgs c n) fun k => (one kMinArgs (.uint n.toUInt64) k).or (if n > 0 then one kRequired (.bool true) k else none) := by
    intro n
    have h1 : Shows o c { c with required := c.required || decide (n > 0) } (fun k => if n > 0 then one kRequired (.bool true) k else none) := by
      by_cases e : n > 0
      · simp only [e, decide_true, Bool.or_true, if_true]; exact shows_required o c true
      · simp only [e, decide_false, Bool.or_false, if_false]; exact .refl o c
    exact h1.trans (shows_set (w := w) (c := { c with required := c.required || decide (n > 0) }) hf _ fun _ _ => rfl)
  cases f with
  | title t => exact shows_set hf _ fun _ _ => rfl
  | action a =>
    simp only [Setter.run] at hr ⊢
    split at hr
    · cases hr
    · rename_i h
      rw [if_neg h]
      show Shows o c { c with action := a } fun k => match actionWord a with | .ok t => one kAction (.str t) k | _ => none
      have : ∃ t, actionWord a = .ok t := by cases a <;> first | exact ⟨_, rfl⟩ | exact absurd rfl h
      obtain ⟨t, ht⟩ := this
      rw [ht]; exact shows_action o c a ht
  | actionName t =>
    simp only [Setter.run] at hr ⊢
    split at hr
    · cases hr
    · rename_i h
      rw [if_neg h]
      exact shows_action o c _ (actionWord_actionOf h)
  | type t =>
    simp only [Setter.run] at hr ⊢
    split at hr
    · cases hr
    · rename_i h
      rw [if_neg h]
      have := shows_type o c t
      rw [typeVal_shown] at this
      exact this
  | typeName t =>
    simp only [Setter.run] at hr ⊢
    cases ht : typeOfWord t with
    | ok ty =>
      have := shows_type o c ty
      rw [typeOfWord_shown ht] at this
      exact this
    | throw e => rw [ht] at hr; cases hr
    | ub => rw [ht] at hr; cases hr
  | const v => exact shows_set hf _ fun _ _ => rfl
  | default v => exact shows_set hf _ fun _ _ => rfl
  | env t => exact shows_set hf _ fun _ _ => rfl
  | minimum v =>
    simp only [Setter.run, setLimit] at hr ⊢
    split at hr
    · rename_i h; rw [if_pos h]; exact hdef .flt _ _ v (.inl ⟨rfl, rfl⟩) fun _ _ => rfl
    · cases hr
  | maximum v =>
    simp only [Setter.run, setLimit] at hr ⊢
    split at hr
    · rename_i h; rw [if_pos h]; exact hdef .flt _ _ v (.inl ⟨rfl, rfl⟩) fun _ _ => rfl
    · cases hr
  | addChoice v =>
    have hv : view o c kEnum = optGet c kEnum := rfl
    show Shows o c (withChoice p c v).1 fun k => if k = kEnum then choicesWith p x v else none
    have hr' : (withChoice p c v).2 = .ok () := hr
    unfold withChoice at hr' ⊢
    unfold choicesWith
    rw [hx, hv]
    cases hg : optGet c kEnum with
    | none => exact shows_set (w := w) (k' := kEnum) hf (.list [v]) fun _ _ => rfl
    | some y =>
      rw [hg] at hr'
      cases y with
      | list xs =>
        dsimp only
        by_cases e : xs.any (fun y => veq p y v) = true
        · rw [if_pos e, if_pos e]
          intro k
          by_cases hk : k = kEnum
          · simp only [if_pos hk]; rfl
          · simp only [if_neg hk]; rfl
        · rw [if_neg e, if_neg e]
          exact shows_set (w := w) (k' := kEnum) hf _ fun _ _ => rfl
      | null =>
        intro k
        by_cases hk : k = kEnum
        · simp only [if_pos hk]; rfl
        · simp only [if_neg hk]; rfl
      | _ => cases hr'
  | setChoices vs => exact shows_set hf _ fun _ _ => rfl
  | required on => exact shows_required o c true
  | help t => exact shows_set hf _ fun _ _ => rfl
  | pattern t => exact hdef .str _ _ _ (.inr ⟨rfl, rfl⟩) fun _ _ => rfl
  | maxLength n => exact hdef .str _ _ _ (.inr ⟨rfl, rfl⟩) fun _ _ => rfl
  | minLength n => exact hdef .str _ _ _ (.inr ⟨rfl, rfl⟩) fun _ _ => rfl
  | minArgs n => exact hreq n
  | maxArgs n => exact shows_set hf _ fun _ _ => rfl
  | numArgs n =>
    have h2 : FineOpt w (setMinArgs c n).opt := (FineOpt.set hf kMinArgs _ (fun e => absurd e (by decide))).1
    have := (hreq n).trans (shows_set (w := w) (c := setMinArgs c n) (k' := kMaxArgs) h2 (.uint n.toUInt64) fun _ _ => rfl)
    intro k
    refine (this k).trans ?_
    show _ = (((one kMaxArgs (.uint n.toUInt64) k).or (one kMinArgs (.uint n.toUInt64) k)).or _).or _
    rw [Option.or_assoc, Option.or_assoc, Option.or_assoc, Option.or_assoc]
  | advanced b => exact shows_advanced o c b

/-! ## Entries in a description -/

theorem keypath_shown {w : World} {o : Opt} (ho : Told w o) {d : Val} (h : describeOpt o = .ok d) : getKey? d kKeypath = some (.str (PathM.pathString o.path)) := by
  rw [view_describes (o := o) (c := o.cfg) ho.2 h]; rfl

theorem find_described {w : World} {s : St} (hs : Sound w s) {ids : List Int32} {os : List Opt} (hb : Both (fun i o => s.entry i = some o) ids os) {ls : List Val}
    (hd : Both (fun d o => describeOpt o = .ok d) ls os) (t : Bytes) :
    (∀ o ∈ os, PathM.pathString o.path = t → ∃ d, ls.find? (hasPath t) = some d ∧ describeOpt o = .ok d) ∧
      ((∀ o ∈ os, PathM.pathString o.path ≠ t) → ls.find? (hasPath t) = none) := by
  induction hd generalizing ids with
  | nil => exact ⟨nofun, fun _ => rfl⟩
  | @cons d o ls os h1 h2 ih =>
    cases hb with
    | @cons i _ ids _ hi hb =>
      have hp := keypath_shown (hs.told i o hi) h1
      have hh : hasPath t d = decide (PathM.pathString o.path = t) := by unfold hasPath; rw [hp]
      rw [List.find?_cons, hh]
      obtain ⟨ih1, ih2⟩ := ih hb
      by_cases e : PathM.pathString o.path = t
      · refine ⟨fun o' ho' he => ?_, fun h => absurd e (h o List.mem_cons_self)⟩
        simp only [e, decide_true]
        refine ⟨d, rfl, ?_⟩
        rcases List.mem_cons.1 ho' with rfl | ho'
        · exact h1
        · obtain ⟨j, hj, hj'⟩ := hb.right ho'
          by_cases hij : i = j
          · subst hij; rw [hi] at hj'; cases hj'; exact h1
          · exact absurd (e.trans he.symm) (hs.reg.distinct hij hi hj').1
      · simp only [e, decide_false]
        refine ⟨fun o' ho' he => ?_, fun h => ih2 fun o' ho' => h o' (List.mem_cons_of_mem _ ho')⟩
        rcases List.mem_cons.1 ho' with rfl | ho'
        · exact absurd he e
        · exact ih1 o' ho' he

/-- The entries of a parser and what its description says. -/
theorem entryIn_described {w : World} {P : Parser} (hs : Sound w P.st) {ord : List Int32 → List Int32} {d : Val} (h : getDescription ord P = .ok d) :
    (∀ i o, P.st.entry i = some o → ∃ x, entryIn d (PathM.pathString o.path) = some x ∧ describeOpt o = .ok x) ∧
      ∀ t, (∀ i o, P.st.entry i = some o → PathM.pathString o.path ≠ t) → entryIn d t = none := by
  obtain ⟨os, as_, gs, p1, p2, p3, p4, p5, p6, _⟩ := getDescription_parts h
  obtain ⟨xs, ls, b1, b2, hos⟩ := describeOptions_both _ p1
  obtain ⟨ys, c1, c2⟩ := describeArguments_both _ p2
  obtain ⟨hno, hna, hdis⟩ := List.nodup_append.1 hs.reg.nodup
  have hpw : xs.Pairwise Distinct := pairwise_distinct hs.reg b1 hno
  have hkeys : ls.map (·.1) = xs.map fun o => PathM.pathString o.path := by
    clear hos b1 hpw
    induction b2 with
    | nil => rfl
    | cons h1 _ ih => rw [List.map_cons, List.map_cons, ih, h1.1]
  have hkn : (ls.map (·.1)).Nodup := by
    rw [hkeys]; exact List.pairwise_map.2 (hpw.imp fun h => h.1)
  have hperm : os.Perm ls := by
    rw [hos]
    have := mergeKeys_perm (m := []) (ls := ls) (fun _ _ => rfl) hkn
    rw [List.append_nil] at this
    exact this
  have hso : AMap.Sorted os := by rw [hos]; exact sorted_mergeKeys (m := []) trivial _
  have hget : ∀ o ∈ xs, ∃ d, AMap.get os (PathM.pathString o.path) = some d ∧ describeOpt o = .ok d := by
    intro o ho
    obtain ⟨e, he, h1, h2⟩ := b2.right ho
    refine ⟨e.2, ?_, h2⟩
    rw [← h1]
    exact AMap.get_of_mem hso (hperm.mem_iff.2 he)
  have hnone : ∀ t, (∀ o ∈ xs, PathM.pathString o.path ≠ t) → AMap.get os t = none := by
    intro t ht
    cases e : AMap.get os t with
    | none => rfl
    | some v =>
      obtain ⟨o, ho, h1, _⟩ := b2.left (hperm.mem_iff.1 (AMap.get_mem e))
      exact absurd h1.symm (ht o ho)
  refine ⟨fun i o ho => ?_, fun t ht => ?_⟩
  · unfold entryIn
    rw [p4, p5]
    rcases List.mem_append.1 (hs.reg.listed i o ho).1 with hi | hi
    · obtain ⟨o', ho', he⟩ := b1.left hi
      rw [ho] at he; cases he
      obtain ⟨x, h1, h2⟩ := hget o ho'
      exact ⟨x, by rw [h1]; rfl, h2⟩
    · obtain ⟨o', ho', he⟩ := c1.left hi
      rw [ho] at he; cases he
      rw [hnone]
      · exact (find_described hs c1 c2 _).1 o ho' rfl
      · intro o2 ho2 e
        obtain ⟨j, hj, hj'⟩ := b1.right ho2
        exact (hs.reg.distinct (fun e => hdis j hj i hi e) hj' ho).1 e
  · unfold entryIn
    rw [p4, p5, hnone t fun o ho => by obtain ⟨j, hj, hj'⟩ := b1.right ho; exact ht j o hj']
    exact (find_described hs c1 c2 t).2 fun o ho => by obtain ⟨j, hj, hj'⟩ := c1.right ho; exact ht j o hj'

theorem keypaths_congr {s s' : St} : ∀ (ids : List Int32), (∀ i ∈ ids, ∃ o o', s.entry i = some o ∧ s'.entry i = some o' ∧ o'.path = o.path) →
    keypaths s' ids = keypaths s ids
  | [], _ => rfl
  | i :: ids, h => by
    obtain ⟨o, o', h1, h2, h3⟩ := h i List.mem_cons_self
    unfold keypaths
    rw [h1, h2]
    simp only []
    rw [h3, keypaths_congr ids fun j hj => h j (List.mem_cons_of_mem _ hj)]

theorem describeGroups_congr {s s' : St} {ord : List Int32 → List Int32} : ∀ (gs : List (Bytes × Group)),
    (∀ x ∈ gs, ∀ i ∈ ord x.2.members, ∃ o o', s.entry i = some o ∧ s'.entry i = some o' ∧ o'.path = o.path) → describeGroups s' ord gs = describeGroups s ord gs
  | [], _ => rfl
  | (n, g) :: gs, h => by
    unfold describeGroups describeGroup
    rw [keypaths_congr _ (h (n, g) List.mem_cons_self), describeGroups_congr gs fun x hx => h x (List.mem_cons_of_mem _ hx)]

/-- Nothing but the entry at `t` differs in two descriptions. -/
structure OnlyAt (t : Bytes) (d d' : Val) : Prop where
  entries : ∀ t', t' ≠ t → entryIn d' t' = entryIn d t'
  groups : mapIn d' kGroups = mapIn d kGroups
  texts : ∀ k, k = kTitle ∨ k = kDescription ∨ k = kEpilog → getKey? d' k = getKey? d k

theorem change_shown {w : World} {P P' : Parser} (hs : Sound w P.st) (hs' : Sound w P'.st) {ord : List Int32 → List Int32} (ho : ∀ l, (ord l).Perm l) {d d' : Val}
    (hd : getDescription ord P = .ok d) (hd' : getDescription ord P' = .ok d') (hg : P'.st.groups = P.st.groups)
    (h1 : P'.title = P.title) (h2 : P'.description = P.description) (h3 : P'.epilog = P.epilog) {i : Int32} {o' : Opt}
    (hsame : ∀ j, j ≠ i → P'.st.entry j = P.st.entry j) (hi' : P'.st.entry i = some o') (hi : ∀ o, P.st.entry i = some o → o'.path = o.path) :
    OnlyAt (PathM.pathString o'.path) d d' ∧ ∃ x, entryIn d' (PathM.pathString o'.path) = some x ∧ describeOpt o' = .ok x := by
  obtain ⟨e1, e2⟩ := entryIn_described hs hd
  obtain ⟨f1, f2⟩ := entryIn_described hs' hd'
  refine ⟨⟨fun t ht => ?_, ?_, ?_⟩, f1 i o' hi'⟩
  · by_cases h : ∃ j o, P'.st.entry j = some o ∧ PathM.pathString o.path = t
    · obtain ⟨j, o, hj, rfl⟩ := h
      have hne : j ≠ i := by
        rintro rfl
        rw [hi'] at hj; cases hj; exact ht rfl
      have hj2 := hj
      rw [hsame j hne] at hj2
      obtain ⟨x, a1, a2⟩ := e1 j o hj2
      obtain ⟨y, b1, b2⟩ := f1 j o hj
      rw [a2] at b2; cases b2
      rw [a1, b1]
    · rw [f2 t fun j o hj e => h ⟨j, o, hj, e⟩, e2 t fun j o hj e => ?_]
      by_cases hne : j = i
      · subst hne
        exact ht (by rw [hi o hj]; exact e.symm)
      · exact h ⟨j, o, by rw [hsame j hne]; exact hj, e⟩
  · obtain ⟨_, _, gs, _, _, p3, _, _, p6, _⟩ := getDescription_parts hd
    obtain ⟨_, _, gs', _, _, q3, _, _, q6, _⟩ := getDescription_parts hd'
    rw [p6, q6]
    rw [hg, describeGroups_congr (s := P.st) P.st.groups, p3] at q3
    · cases q3; rfl
    · intro x hx j hj
      have hf : find P.st.groups x.1 = some x.2 := by rw [find_get]; exact AMap.get_of_mem hs.names hx
      obtain ⟨o, ho⟩ := (hs.members x.1 x.2 hf).2 j ((ho _).mem_iff.1 hj)
      by_cases hne : j = i
      · subst hne; exact ⟨o, o', ho, hi', hi o ho⟩
      · exact ⟨o, o, ho, by rw [hsame j hne]; exact ho, rfl⟩
  · obtain ⟨_, _, _, _, _, _, _, _, _, p7, p8, p9⟩ := getDescription_parts hd
    obtain ⟨_, _, _, _, _, _, _, _, _, q7, q8, q9⟩ := getDescription_parts hd'
    rintro k (rfl | rfl | rfl)
    · rw [p7, q7, h1]
    · rw [p8, q8, h2]
    · rw [p9, q9, h3]

/-! ## Theorems -/

/-- **C104**: after a setter was called, the description shows exactly what it set; everything else is described as before. -/
theorem setter_shown {w : World} {P P' : Parser} (hP : Built w P) {i : Int32} {o : Opt} (hi : P.st.entry i = some o) {f : Setter}
    (hr : (PCall.set i f).run w P = (P', .ok ())) {ord : List Int32 → List Int32} (ho : ∀ l, (ord l).Perm l) {d d' : Val}
    (hd : getDescription ord P = .ok d) (hd' : getDescription ord P' = .ok d') :
    OnlyAt (PathM.pathString o.path) d d' ∧ (entryIn d (PathM.pathString o.path)).isSome ∧
      ∀ k, says (entryIn d' (PathM.pathString o.path)) k =
        (f.shown w.p (entryIn d (PathM.pathString o.path)) k).or (says (entryIn d (PathM.pathString o.path)) k) := by
  have hs := hP.sound
  have hrun : (PCall.set i f).run w P = ({ P with st := (setEntry w.p P.st i f).1 }, (setEntry w.p P.st i f).2) := rfl
  rw [hrun] at hr
  injection hr with hr1 hr2
  have hk := keeps_step (w := w) hs (.set i f) trivial
  have hs' : Sound w P'.st := by
    rw [← hr1]; exact hk (by show (setEntry w.p P.st i f).2 ≠ _; rw [hr2]; exact nofun)
  have hout : (f.run w.p o.cfg).2 = .ok () := by
    unfold setEntry at hr2; rw [hi] at hr2; exact hr2
  have hent : ∀ j, P'.st.entry j = (P.st.entry j).map fun x => if j = i then { x with cfg := (f.run w.p o.cfg).1 } else x := by
    intro j
    rw [← hr1]
    show (setEntry w.p P.st i f).1.entry j = _
    unfold setEntry
    rw [hi]
    rw [← entry_setCfg P.st i (fun _ => (f.run w.p o.cfg).1) j]
    dsimp only
    cases f <;> rfl
  have hgr : P'.st.groups = P.st.groups := by
    rw [← hr1]
    show (setEntry w.p P.st i f).1.groups = _
    unfold setEntry
    rw [hi]
    dsimp only
    cases f <;> rfl
  have hi' : P'.st.entry i = some { o with cfg := (f.run w.p o.cfg).1 } := by
    rw [hent, hi]; simp
  obtain ⟨c1, x', c2, c3⟩ := change_shown hs hs' ho hd hd' hgr (by rw [← hr1]) (by rw [← hr1]) (by rw [← hr1]) (i := i) (o' := { o with cfg := (f.run w.p o.cfg).1 })
    (fun j hj => by rw [hent]; cases P.st.entry j <;> simp [hj]) hi' (fun x hx => by rw [hi] at hx; cases hx; rfl)
  obtain ⟨x, a1, a2⟩ := (entryIn_described hs hd).1 i o hi
  refine ⟨c1, by rw [a1]; rfl, fun k => ?_⟩
  have hfine := (hs.told i o hi).2
  have hx : ∀ k, says (some x) k = view o o.cfg k := fun k => view_describes (o := o) (c := o.cfg) hfine a2 k
  have hsh := shows_setter (o := o) hfine hx w.p f hout k
  have hc2 : entryIn d' (PathM.pathString o.path) = some x' := c2
  rw [a1, hc2, hx k, ← hsh]
  exact view_describes (o := o) (hs'.told i _ hi').2 c3 k

/-- The title of a new entry: the last key of its path; if that is an index, the whole path. -/
def titleOf (p : VPath) : Bytes :=
  match p.getLast? with
  | some (.key k) => k
  | _ => PathM.pathString p

theorem new_shown {w : World} {id : Int32} {path : VPath} {short : Int32} {long help : Bytes} {action : Action} {o : Opt}
    (h : newOpt id path short long help action = .ok o) {d : Val} (hd : describeOpt o = .ok d) :
    ∃ a, actionWord action = .ok a ∧ ∀ k, getKey? d k = newShown (PathM.pathString path) short long help (titleOf path) a k := by
  obtain ⟨e1, e2, e3, e4, e5, _⟩ := newOpt_fields h
  obtain ⟨a, ha⟩ := describeOpt_action hd
  have ht : o.cfg = ⟨.null, [], action, false, false, .map [(kDescription, .str help), (kTitle, .str (titleOf path))]⟩ := by
    unfold newOpt at h
    unfold titleOf
    dsimp only at h
    cases hl : path.getLast? with
    | none => rw [hl] at h; cases h
    | some e => rw [hl] at h; cases e <;> cases h <;> rfl
  refine ⟨a, by rw [e5] at ha; exact ha, fun k => ?_⟩
  rw [view_describes (o := o) (c := o.cfg) (newOpt_told (w := w) h).2 hd]
  unfold view
  rw [ha]
  have hx : ∀ k, optGet o.cfg k = if k = kDescription then some (.str help) else if k = kTitle then some (.str (titleOf path)) else none := by
    intro k
    unfold optGet
    rw [ht]
    show AMap.get [(kDescription, Val.str help), (kTitle, Val.str (titleOf path))] k = _
    simp only [AMap.get, eq_comm (b := k)]
  have hreq : o.cfg.required = false := by rw [ht]
  have hadv : o.cfg.advanced = false := by rw [ht]
  have hty : o.cfg.ty = .null := by rw [ht]
  unfold newShown
  by_cases k1 : k = kKeypath
  · subst k1; rw [if_pos rfl, ← e2]; rfl
  by_cases k2 : k = kShortOption
  · subst k2; rw [if_neg k1, if_pos rfl, ← e3]; rfl
  by_cases k3 : k = kLongOption
  · subst k3; rw [if_neg k1, if_neg k2, if_pos rfl, ← e4]; rfl
  by_cases k4 : k = kDescription
  · subst k4; rw [if_neg k1, if_neg k2, if_neg k3, if_pos rfl, hx, if_pos rfl]; rfl
  by_cases k5 : k = kTitle
  · subst k5; rw [if_neg k1, if_neg k2, if_neg k3, if_neg k4, if_pos rfl, hx, if_neg k4, if_pos rfl]; rfl
  by_cases k6 : k = kAction
  · subst k6; rw [if_neg k1, if_neg k2, if_neg k3, if_neg k4, if_neg k5, if_pos rfl]; rfl
  by_cases k7 : k = kRequired
  · subst k7; rw [if_neg k1, if_neg k2, if_neg k3, if_neg k4, if_neg k5, if_neg k6, if_pos rfl, ← hreq]; rfl
  by_cases k8 : k = kAdvanced
  · subst k8; rw [if_neg k1, if_neg k2, if_neg k3, if_neg k4, if_neg k5, if_neg k6, if_neg k7, if_pos rfl, ← hadv]; rfl
  by_cases k9 : k = kType
  · subst k9; rw [if_neg k1, if_neg k2, if_neg k3, if_neg k4, if_neg k5, if_neg k6, if_neg k7, if_neg k8, if_pos rfl]
    show some (typeVal o.cfg.ty) = _
    rw [hty]; rfl
  rw [if_neg k1, if_neg k2, if_neg k3, if_neg k4, if_neg k5, if_neg k6, if_neg k7, if_neg k8, if_neg k9, hx, if_neg k4, if_neg k5]
  unfold extra
  rw [if_neg k8, if_neg k1, if_neg k7, if_neg k6, if_neg k3, if_neg k2, if_neg k9]
  rfl

/-- **C104**: a new option is described as it was added, at a key path that was not described before; everything else is
described as before.  Its short name is the given one, unless conflict resolution is on and another entry has it. -/
theorem option_shown {w : World} {P P' : Parser} (hP : Built w P) {kp : Bytes} {short : Int32} {long help : Bytes} {action : Action} (hc : short ≤ 255)
    (hr : (PCall.addOption kp short long help action).run w P = (P', .ok ())) {ord : List Int32 → List Int32} (ho : ∀ l, (ord l).Perm l) {d d' : Val}
    (hd : getDescription ord P = .ok d) (hd' : getDescription ord P' = .ok d') :
    ∃ path short' a, PathM.parsePath kp = .ok path ∧ actionWord action = .ok a ∧
      (short' = short ∨ (short' = 0 ∧ P.st.reg.resolve = true ∧ ∃ i o, P.st.entry i = some o ∧ o.short > 0 ∧ toChar o.short = toChar short)) ∧
      OnlyAt (PathM.pathString path) d d' ∧ entryIn d (PathM.pathString path) = none ∧ (AMap.get (mapIn d' kOptions) (PathM.pathString path)).isSome ∧
      ∀ k, says (entryIn d' (PathM.pathString path)) k = newShown (PathM.pathString path) short' long help (titleOf path) a k := by
  have hs := hP.sound
  have hrun : (PCall.addOption kp short long help action).run w P = ({ P with st := (onReg P.st (addOption P.st.reg kp short long help action) fun s _ => (s, .ok ())).1 },
      (onReg P.st (addOption P.st.reg kp short long help action) fun s _ => (s, .ok ())).2) := rfl
  rw [hrun] at hr
  injection hr with hr1 hr2
  obtain ⟨t, r, e, _, _, h2⟩ := addOption_cases P.st.reg kp short long help action
  rw [e] at hr1 hr2
  cases r with
  | throw x => cases hr2
  | ub => cases hr2
  | ok id =>
    have hst : P' = { P with st := { P.st with reg := t } } := hr1.symm
    have hs' : Sound w P'.st := by rw [hst]; exact (hs.addOption hc e nofun).1
    obtain ⟨t0, path, o, sh', hp, h4, h5, h6, ht⟩ := h2 id rfl
    obtain ⟨e1, e2, e3, e4, _⟩ := newOpt_fields h6
    have hsh : sh'.toInt ≤ 256 := by
      have := Int32.le_iff_toInt_le.1 hc
      have h255 : (255 : Int32).toInt = 255 := by decide
      rcases h5 with rfl | ⟨rfl, _⟩
      · omega
      · decide
    have hun := h4.unused hs.reg hsh
    have hf : ∀ k, P'.st.entry k = if id = k then some o else P.st.entry k := by
      intro k
      rw [hst, ht]
      show find (insert ltInt t0.optionMap o.id o) k = _
      rw [h4.same.2.2.1, e1]
      exact find_insert _ _ hun k
    have hi' : P'.st.entry id = some o := by rw [hf, if_pos rfl]
    obtain ⟨c1, x, c2, c3⟩ := change_shown hs hs' ho hd hd' (by rw [hst]) (by rw [hst]) (by rw [hst]) (by rw [hst]) (i := id) (o' := o)
      (fun j hj => by rw [hf, if_neg (Ne.symm hj)]) hi' (fun x hx => by rw [show P.st.entry id = none from hun] at hx; cases hx)
    rw [e2] at c1 c2
    obtain ⟨a, ha, hk⟩ := new_shown (w := w) h6 c3
    have hnone : ∀ j q, P.st.entry j = some q → PathM.pathString q.path ≠ PathM.pathString path := by
      intro j q hq he
      have := hs.reg.path j q hq
      rw [he, h4.path] at this; cases this
    refine ⟨path, sh', a, hp, ha, ?_, c1, (entryIn_described hs hd).2 _ hnone, ?_, fun k => by rw [c2]; exact hk k⟩
    · rcases h5 with h | ⟨h, h'⟩
      · exact .inl h
      · refine .inr ⟨h, h'.1, ?_⟩
        obtain ⟨j, hj⟩ := Option.isSome_iff_exists.1 h'.2.2
        obtain ⟨q, h7, h8, h9⟩ := hs.reg.shortOf _ _ hj
        exact ⟨j, q, h7, h8, h9⟩
    · obtain ⟨os, as_, gs, p1, _, _, p4, _⟩ := getDescription_parts hd'
      have hopt : P'.st.reg.options = P.st.reg.options ++ [id] := by
        rw [hst, ht]
        show t0.options ++ [o.id] = _
        rw [h4.same.1, e1]
      rw [hopt] at p1
      obtain ⟨xs, ls, b1, b2, hos⟩ := describeOptions_both _ p1
      obtain ⟨o1, ho1, he⟩ := b1.left (List.mem_append.2 (.inr (List.mem_singleton.2 rfl)))
      rw [hi'] at he; cases he
      obtain ⟨y, hy, hy1, _⟩ := b2.right ho1
      rw [p4, hos, ← e2, ← hy1]
      have : ∀ (ls m : List (Bytes × Val)), (y ∈ ls ∨ (AMap.get m y.1).isSome) → (AMap.get (mergeKeys m ls) y.1).isSome := by
        intro ls
        induction ls with
        | nil => intro m h; rcases h with h | h; cases h; exact h
        | cons z ls ih =>
          intro m h
          refine ih (AMap.set m z.1 z.2) ?_
          rcases h with h | h
          · rcases List.mem_cons.1 h with rfl | h
            · right; rw [get_set, if_pos rfl]; rfl
            · exact .inl h
          · right; rw [get_set]; split
            · rfl
            · exact h
      exact this ls [] (.inl hy)

theorem describeArguments_snoc {s : St} {i : Int32} : ∀ (ids : List Int32) {ls : List Val}, describeArguments s (ids ++ [i]) = .ok ls →
    ∃ ls0 x o, describeArguments s ids = .ok ls0 ∧ s.entry i = some o ∧ describeOpt o = .ok x ∧ ls = ls0 ++ [x]
  | [], ls, h => by
    rw [List.nil_append] at h
    unfold describeArguments at h
    cases ho : s.entry i with
    | none => rw [ho] at h; cases h
    | some o =>
      rw [ho] at h
      cases hd : describeOpt o with
      | throw e => simp only [hd] at h; cases h
      | ub => simp only [hd] at h; cases h
      | ok x => simp only [hd] at h; cases h; exact ⟨[], x, o, rfl, rfl, hd, rfl⟩
  | j :: ids, ls, h => by
    rw [List.cons_append] at h
    unfold describeArguments at h
    cases ho : s.entry j with
    | none => rw [ho] at h; cases h
    | some o =>
      rw [ho] at h
      cases hd : describeOpt o with
      | throw e => simp only [hd] at h; cases h
      | ub => simp only [hd] at h; cases h
      | ok x =>
        simp only [hd] at h
        cases hr : describeArguments s (ids ++ [i]) with
        | throw e => rw [hr] at h; cases h
        | ub => rw [hr] at h; cases h
        | ok ds =>
          rw [hr] at h
          cases h
          obtain ⟨ls0, y, q, h1, h2, h3, rfl⟩ := describeArguments_snoc ids hr
          refine ⟨x :: ls0, y, q, ?_, h2, h3, rfl⟩
          unfold describeArguments
          rw [ho]
          simp only [hd]
          rw [h1]; rfl

theorem describeArguments_eq {s s' : St} : ∀ (ids : List Int32), (∀ i ∈ ids, s'.entry i = s.entry i) → describeArguments s' ids = describeArguments s ids
  | [], _ => rfl
  | i :: ids, h => by
    unfold describeArguments
    rw [h i List.mem_cons_self, describeArguments_eq ids fun j hj => h j (List.mem_cons_of_mem _ hj)]

theorem newArg_shown {w : World} {id : Int32} {path : VPath} {help : Bytes} {action : Action} {o : Opt}
    (h : newOpt id path 0 [] help action = .ok o) {d : Val} (hd : describeOpt { o with cfg := argDefaults o.cfg } = .ok d) :
    ∃ a, actionWord action = .ok a ∧ ∀ k, getKey? d k =
      ((one kMinArgs (.int 1) k).or (one kMaxArgs (.int 1) k)).or (newShown (PathM.pathString path) 0 [] help (titleOf path) a k) := by
  obtain ⟨_, e2, _, _, e5, _⟩ := newOpt_fields h
  have hf := (newOpt_told (w := w) h).2
  obtain ⟨a, ha⟩ := describeOpt_action hd
  have ha' : actionWord o.cfg.action = .ok a := ha
  obtain ⟨m, hm, hs, _⟩ := hf
  obtain ⟨D, h1, _, _⟩ := describeOpt_ok (o := o) hm hs ha'
  obtain ⟨a2, b1, b2⟩ := new_shown (w := w) h h1
  refine ⟨a2, b1, fun k => ?_⟩
  have hd2 : argDefaults o.cfg = setOpt (setOpt o.cfg kMaxArgs (.int 1)) kMinArgs (.int 1) := by
    unfold argDefaults setOpt
    rw [hm]
  have hf := (newOpt_told (w := w) h).2
  have s1 := shows_set (o := o) hf (k' := kMaxArgs) (.int 1) (fun _ _ => rfl)
  have hf1 := FineOpt.set hf kMaxArgs (.int 1) (fun h => absurd h (by decide))
  have s2 := shows_set (o := o) (c := setOpt o.cfg kMaxArgs (.int 1)) hf1.1 (k' := kMinArgs) (.int 1) (fun _ _ => rfl)
  rw [view_describes (o := o) (c := argDefaults o.cfg) (newArg_fine (w := w) h).1.2 hd, hd2, (s1.trans s2) k, ← b2 k,
    view_describes (o := o) (c := o.cfg) hf h1]

/-- **C104**: a new argument is described as it was added, after all others; everything else is described as before. -/
theorem argument_shown {w : World} {P P' : Parser} (hP : Built w P) {kp help : Bytes}
    (hr : (PCall.addArgument kp help).run w P = (P', .ok ())) {ord : List Int32 → List Int32} (ho : ∀ l, (ord l).Perm l) {d d' : Val}
    (hd : getDescription ord P = .ok d) (hd' : getDescription ord P' = .ok d') :
    ∃ path x, PathM.parsePath kp = .ok path ∧ OnlyAt (PathM.pathString path) d d' ∧ entryIn d (PathM.pathString path) = none ∧
      entryIn d' (PathM.pathString path) = some x ∧ mapIn d' kOptions = mapIn d kOptions ∧ listIn d' kArguments = listIn d kArguments ++ [x] ∧
      ∀ k, getKey? x k = ((one kMinArgs (.int 1) k).or (one kMaxArgs (.int 1) k)).or (newShown (PathM.pathString path) 0 [] help (titleOf path) wStore k) := by
  have hs := hP.sound
  have hrun : (PCall.addArgument kp help).run w P = ({ P with st := (onReg P.st (addArgument P.st.reg kp help .store) fun s _ => (s, .ok ())).1 },
      (onReg P.st (addArgument P.st.reg kp help .store) fun s _ => (s, .ok ())).2) := rfl
  rw [hrun] at hr
  injection hr with hr1 hr2
  obtain ⟨t, r, e, _, _, h2⟩ := addArgument_cases P.st.reg kp help .store
  rw [e] at hr1 hr2
  cases r with
  | throw x => cases hr2
  | ub => cases hr2
  | ok id =>
    have hst : P' = { P with st := { P.st with reg := t } } := hr1.symm
    have hs' : Sound w P'.st := by rw [hst]; exact (hs.addArgument e nofun).1
    obtain ⟨t0, path, o, hp, h4, h6, ht⟩ := h2 id rfl
    obtain ⟨e1, e2, e3, e4, _⟩ := newOpt_fields h6
    have hun := h4.unused hs.reg (by decide)
    have hf : ∀ k, P'.st.entry k = if id = k then some { o with cfg := argDefaults o.cfg } else P.st.entry k := by
      intro k
      rw [hst, ht]
      show find (insert ltInt t0.optionMap o.id _) k = _
      rw [h4.same.2.2.1, e1]
      exact find_insert _ _ hun k
    have hi' : P'.st.entry id = some { o with cfg := argDefaults o.cfg } := by rw [hf, if_pos rfl]
    obtain ⟨c1, x, c2, c3⟩ := change_shown hs hs' ho hd hd' (by rw [hst]) (by rw [hst]) (by rw [hst]) (by rw [hst]) (i := id)
      (o' := { o with cfg := argDefaults o.cfg })
      (fun j hj => by rw [hf, if_neg (Ne.symm hj)]) hi' (fun x hx => by rw [show P.st.entry id = none from hun] at hx; cases hx)
    rw [show ({ o with cfg := argDefaults o.cfg } : Opt).path = path from e2] at c1 c2
    obtain ⟨a, ha, hk⟩ := newArg_shown (w := w) h6 c3
    cases ha
    have hnone : ∀ j q, P.st.entry j = some q → PathM.pathString q.path ≠ PathM.pathString path := by
      intro j q hq he
      have := hs.reg.path j q hq
      rw [he, h4.path] at this; cases this
    have hne : ∀ j o, P.st.entry j = some o → P'.st.entry j = P.st.entry j := by
      intro j o hj
      rw [hf, if_neg]
      rintro rfl
      rw [show P.st.entry id = none from hun] at hj; cases hj
    obtain ⟨os, as_, gs, p1, p2, _, p4, p5, _⟩ := getDescription_parts hd
    obtain ⟨os', as', gs', q1, q2, _, q4, q5, _⟩ := getDescription_parts hd'
    refine ⟨path, x, hp, c1, (entryIn_described hs hd).2 _ hnone, c2, ?_, ?_, hk⟩
    · have hopt : P'.st.reg.options = P.st.reg.options := by
        rw [hst, ht]
        show t0.options = _
        rw [h4.same.1]
      obtain ⟨xs, ls, b1, b2, b3⟩ := describeOptions_both _ p1
      have hb : Both (fun i o => ∃ o', P'.st.entry i = some o' ∧ Alike o o') P.st.reg.options xs :=
        b1.imp fun i o hi => ⟨o, by rw [hne i o hi]; exact hi, .refl o⟩
      have : describeOptions P'.st P.st.reg.options [] = .ok (mergeKeys [] ls) := describeOptions_new b2 hb []
      rw [p4, q4, b3]
      rw [hopt, this] at q1
      cases q1; rfl
    · have harg : P'.st.reg.arguments = P.st.reg.arguments ++ [id] := by
        rw [hst, ht]
        show t0.arguments ++ [o.id] = _
        rw [h4.same.2.1, e1]
      rw [harg] at q2
      obtain ⟨ls0, y, q, g1, g2, g3, g4⟩ := describeArguments_snoc _ q2
      rw [hi'] at g2; cases g2
      rw [c3] at g3; cases g3
      obtain ⟨ys, b1, _⟩ := describeArguments_both _ p2
      rw [describeArguments_eq (s := P.st) _ fun i hi => by obtain ⟨o, _, ho⟩ := b1.left hi; exact hne i o ho, p2] at g1
      cases g1
      rw [q5, p5, g4]

/-! ## Groups -/

/-- Nothing but the group `n` differs in two descriptions. -/
structure OnlyGroup (n : Bytes) (d d' : Val) : Prop where
  entries : ∀ t, entryIn d' t = entryIn d t
  groups : ∀ n', n' ≠ n → AMap.get (mapIn d' kGroups) n' = AMap.get (mapIn d kGroups) n'
  texts : ∀ k, k = kTitle ∨ k = kDescription ∨ k = kEpilog → getKey? d' k = getKey? d k

/-- The description of one group. -/
def groupIn (d : Val) (n : Bytes) : Option Val := AMap.get (mapIn d kGroups) n

theorem groupIn_described {ord : List Int32 → List Int32} {P : Parser} {d : Val} (hd : getDescription ord P = .ok d) (n : Bytes) :
    (find P.st.groups n = none ∧ groupIn d n = none) ∨ ∃ g x, find P.st.groups n = some g ∧ groupIn d n = some x ∧ describeGroup P.st ord g = .ok x := by
  obtain ⟨_, _, gs, _, _, p3, _, _, p6, _⟩ := getDescription_parts hd
  unfold groupIn
  rw [p6]
  exact get_described (describeGroups_both _ p3) n

theorem group_change {w : World} {P P' : Parser} (hs : Sound w P.st) (hs' : Sound w P'.st) {ord : List Int32 → List Int32} (ho : ∀ l, (ord l).Perm l) {d d' : Val}
    (hd : getDescription ord P = .ok d) (hd' : getDescription ord P' = .ok d') (n : Bytes)
    (h1 : P'.title = P.title) (h2 : P'.description = P.description) (h3 : P'.epilog = P.epilog)
    (he : ∀ j, ∃ f : Opt → Opt, P'.st.entry j = (P.st.entry j).map f ∧ ∀ o, (f o).path = o.path ∧ describeOpt (f o) = describeOpt o)
    (hg : ∀ n', n' ≠ n → find P'.st.groups n' = find P.st.groups n') : OnlyGroup n d d' := by
  obtain ⟨e1, e2⟩ := entryIn_described hs hd
  obtain ⟨f1, f2⟩ := entryIn_described hs' hd'
  refine ⟨fun t => ?_, fun n' hn => ?_, ?_⟩
  · by_cases h : ∃ j o, P.st.entry j = some o ∧ PathM.pathString o.path = t
    · obtain ⟨j, o, hj, rfl⟩ := h
      obtain ⟨f, hf, hf2⟩ := he j
      rw [hj] at hf
      obtain ⟨x, a1, a2⟩ := e1 j o hj
      obtain ⟨y, b1, b2⟩ := f1 j (f o) hf
      rw [(hf2 o).2, a2] at b2; cases b2
      rw [(hf2 o).1] at b1
      rw [a1, b1]
    · rw [e2 t fun j o hj e => h ⟨j, o, hj, e⟩, f2 t fun j o hj e => ?_]
      obtain ⟨f, hf, hf2⟩ := he j
      rw [hj] at hf
      cases hj2 : P.st.entry j with
      | none => rw [hj2] at hf; cases hf
      | some q =>
        rw [hj2] at hf; cases hf
        exact h ⟨j, q, hj2, by rw [← (hf2 q).1]; exact e⟩
  · show groupIn d' n' = groupIn d n'
    rcases groupIn_described hd n' with ⟨a, b⟩ | ⟨g, x, a, b, c⟩ <;> rcases groupIn_described hd' n' with ⟨a', b'⟩ | ⟨g', x', a', b', c'⟩
    · rw [b, b']
    · rw [hg n' hn, a] at a'; cases a'
    · rw [hg n' hn, a] at a'; cases a'
    · rw [hg n' hn, a] at a'; cases a'
      rw [b, b']
      have : describeGroup P'.st ord g = describeGroup P.st ord g := by
        unfold describeGroup
        rw [keypaths_congr (s := P.st)]
        intro i hi
        obtain ⟨o, hio⟩ := (hs.members n' g a).2 i ((ho _).mem_iff.1 hi)
        obtain ⟨f, hf, hf2⟩ := he i
        rw [hio] at hf
        exact ⟨o, f o, hio, hf, (hf2 o).1⟩
      rw [this, c] at c'; cases c'; rfl
  · obtain ⟨_, _, _, _, _, _, _, _, _, p7, p8, p9⟩ := getDescription_parts hd
    obtain ⟨_, _, _, _, _, _, _, _, _, q7, q8, q9⟩ := getDescription_parts hd'
    rintro k (rfl | rfl | rfl)
    · rw [p7, q7, h1]
    · rw [p8, q8, h2]
    · rw [p9, q9, h3]

/-- What the setters of a group set: the name of the group, the key and its new value; empty texts are not shown. -/
def PCall.groupKey : PCall → Option (Bytes × Bytes × Option Val)
  | .groupTitle n t => some (n, kTitle, if t ≠ [] then some (.str t) else none)
  | .groupDescription n t => some (n, kDescription, if t ≠ [] then some (.str t) else none)
  | .groupExclusive n b => some (n, kExclusive, some (.bool b))
  | .groupRequired n b => some (n, kRequired, some (.bool b))
  | .groupAdvanced n b => some (n, kAdvanced, some (.bool b))
  | _ => none

theorem groupKey_sets {c : PCall} {n k0 : Bytes} {v : Option Val} (hc : c.groupKey = some (n, k0, v)) (w : World) (P : Parser) :
    ∃ (b : Bool) (f : Group → Group), c.run w P = ({ P with st := setGroup { P.st with haveAdvanced := b } n f }, .ok ()) ∧ c.proper ∧ k0 ≠ kMembers ∧
      ∀ g, (f g).members = g.members ∧ ∀ mem k, groupSays (f g) mem k = if k = k0 then v else groupSays g mem k := by
  have key : ∀ (g g' : Group) (mem : List Val) (k : Bytes),
      (∀ k1 : Bytes, k1 ≠ kMembers → k1 ≠ kAdvanced → k1 ≠ kExclusive → k1 ≠ kRequired → k1 ≠ kTitle → k1 ≠ kDescription → groupSays g' mem k1 = groupSays g mem k1) := by
    intro g g' mem k k1 h1 h2 h3 h4 h5 h6
    unfold groupSays
    simp only [if_neg h1, if_neg h2, if_neg h3, if_neg h4, if_neg h5, if_neg h6]
  cases c <;> simp only [PCall.groupKey, Option.some.injEq, Prod.mk.injEq, reduceCtorEq] at hc
  · obtain ⟨rfl, rfl, rfl⟩ := hc
    rename_i n t
    refine ⟨P.st.haveAdvanced, fun g => { g with title := t }, rfl, trivial, by decide, fun g => ⟨rfl, fun mem k => ?_⟩⟩
    unfold groupSays
    by_cases e : k = kTitle
    · subst e; rw [if_pos rfl]; rfl
    · simp only [if_neg e]
  · obtain ⟨rfl, rfl, rfl⟩ := hc
    rename_i n t
    refine ⟨P.st.haveAdvanced, fun g => { g with description := t }, rfl, trivial, by decide, fun g => ⟨rfl, fun mem k => ?_⟩⟩
    unfold groupSays
    by_cases e : k = kDescription
    · subst e; rw [if_pos rfl]; rfl
    · simp only [if_neg e]
  · obtain ⟨rfl, rfl, rfl⟩ := hc
    rename_i n t
    refine ⟨P.st.haveAdvanced, fun g => { g with exclusive := t }, rfl, trivial, by decide, fun g => ⟨rfl, fun mem k => ?_⟩⟩
    unfold groupSays
    by_cases e : k = kExclusive
    · subst e; rw [if_pos rfl]; rfl
    · simp only [if_neg e]
  · obtain ⟨rfl, rfl, rfl⟩ := hc
    rename_i n t
    refine ⟨P.st.haveAdvanced, fun g => { g with required := t }, rfl, trivial, by decide, fun g => ⟨rfl, fun mem k => ?_⟩⟩
    unfold groupSays
    by_cases e : k = kRequired
    · subst e; rw [if_pos rfl]; rfl
    · simp only [if_neg e]
  · obtain ⟨rfl, rfl, rfl⟩ := hc
    rename_i n t
    refine ⟨true, fun g => { g with advanced := t }, rfl, trivial, by decide, fun g => ⟨rfl, fun mem k => ?_⟩⟩
    unfold groupSays
    by_cases e : k = kAdvanced
    · subst e; rw [if_pos rfl]; rfl
    · simp only [if_neg e]

/-- **C104**: after a setter of a group was called, the description shows exactly what it set. -/
theorem group_setter_shown {w : World} {P P' : Parser} (hP : Built w P) {c : PCall} {n k0 : Bytes} {v : Option Val} (hc : c.groupKey = some (n, k0, v))
    (hn : (find P.st.groups n).isSome) {r : Out Unit} (hr : c.run w P = (P', r)) {ord : List Int32 → List Int32} (ho : ∀ l, (ord l).Perm l) {d d' : Val}
    (hd : getDescription ord P = .ok d) (hd' : getDescription ord P' = .ok d') :
    r = .ok () ∧ OnlyGroup n d d' ∧ (groupIn d n).isSome ∧ ∀ k, says (groupIn d' n) k = if k = k0 then v else says (groupIn d n) k := by
  have hs := hP.sound
  obtain ⟨b, f, hrun, _, hk0, hf⟩ := groupKey_sets hc w P
  rw [hr] at hrun
  injection hrun with hr1 hr2
  have hs0 : Sound w { P.st with haveAdvanced := b } := hs.of_eq rfl rfl
  have hs' : Sound w P'.st := by rw [hr1]; exact hs0.setGroup n f fun g => (hf g).1
  have hent : ∀ j, P'.st.entry j = P.st.entry j := fun j => by rw [hr1]; rfl
  have hgr : ∀ m, find P'.st.groups m = (find P.st.groups m).map fun g => if m = n then f g else g := by
    intro m; rw [hr1]; exact find_setGroup { P.st with haveAdvanced := b } n f m
  have honly := group_change hs hs' ho hd hd' n (by rw [hr1]) (by rw [hr1]) (by rw [hr1])
    (fun j => ⟨id, by rw [hent]; cases P.st.entry j <;> rfl, fun _ => ⟨rfl, rfl⟩⟩)
    (fun m hm => by rw [hgr]; cases find P.st.groups m <;> simp [hm])
  refine ⟨hr2, honly, ?_⟩
  rcases groupIn_described hd n with ⟨a, _⟩ | ⟨g, x, a1, a2, a3⟩
  · rw [a] at hn; cases hn
  rcases groupIn_described hd' n with ⟨a, _⟩ | ⟨g', x', b1, b2, b3⟩
  · rw [hgr, a1] at a; cases a
  rw [hgr, a1] at b1
  simp only [Option.map_some, if_true, Option.some.injEq] at b1
  subst b1
  have hm := fun i (hi : i ∈ ord g.members) => (hs.members n g a1).2 i ((ho _).mem_iff.1 hi)
  have s1 := says_described hm a3
  have s2 := says_described (s := P'.st) (g := f g) (ord := ord) (fun i hi => by
    rw [(hf g).1] at hi; rw [hent]; exact hm i hi) b3
  refine ⟨by rw [a2]; rfl, fun k => ?_⟩
  rw [a2, b2]
  show getKey? x' k = if k = k0 then v else getKey? x k
  rw [s1, s2, (hf g).2, (hf g).1]
  have : (ord g.members).map (pathVal P'.st) = (ord g.members).map (pathVal P.st) := by
    apply List.map_congr_left; intro i _; unfold pathVal; rw [hent]
  rw [this]

/-- What the description says of a new group. -/
def newGroupShown (k : Bytes) : Option Val :=
  if k = kRequired ∨ k = kExclusive ∨ k = kAdvanced then some (.bool false) else none

theorem says_new (k : Bytes) (hk : k ≠ kMembers) (mem : List Val) : groupSays .new mem k = newGroupShown k := by
  unfold groupSays newGroupShown
  rw [if_neg hk]
  by_cases h1 : k = kAdvanced
  · rw [if_pos h1, if_pos (.inr (.inr h1))]; rfl
  by_cases h2 : k = kExclusive
  · rw [if_neg h1, if_pos h2, if_pos (.inr (.inl h2))]; rfl
  by_cases h3 : k = kRequired
  · rw [if_neg h1, if_neg h2, if_pos h3, if_pos (.inl h3)]; rfl
  have h6 : ¬ (k = kRequired ∨ k = kExclusive ∨ k = kAdvanced) := by
    rintro (h | h | h)
    · exact h3 h
    · exact h2 h
    · exact h1 h
  rw [if_neg h1, if_neg h2, if_neg h3, if_neg h6]
  by_cases h4 : k = kTitle
  · rw [if_pos h4]; rfl
  by_cases h5 : k = kDescription
  · rw [if_neg h4, if_pos h5]; rfl
  rw [if_neg h4, if_neg h5]

/-- **C104**: asking for a group that is not there makes an empty one; one that is there is left as it is. -/
theorem group_shown {w : World} {P P' : Parser} (hP : Built w P) {n : Bytes} {r : Out Unit} (hr : (PCall.group n).run w P = (P', r))
    {ord : List Int32 → List Int32} (ho : ∀ l, (ord l).Perm l) {d d' : Val} (hd : getDescription ord P = .ok d) (hd' : getDescription ord P' = .ok d') :
    r = .ok () ∧ OnlyGroup n d d' ∧ (groupIn d' n).isSome ∧ membersOf (groupIn d' n) = membersOf (groupIn d n) ∧
      ((groupIn d n).isSome → groupIn d' n = groupIn d n) ∧
      (groupIn d n = none → ∀ k, k ≠ kMembers → says (groupIn d' n) k = newGroupShown k) := by
  have hs := hP.sound
  have hrun : (PCall.group n).run w P = ({ P with st := getGroup P.st n }, .ok ()) := rfl
  rw [hr] at hrun
  injection hrun with hr1 hr2
  have hs' : Sound w P'.st := by rw [hr1]; exact hs.getGroup n
  have hent : ∀ j, P'.st.entry j = P.st.entry j := fun j => by rw [hr1]; rfl
  have hgr : ∀ m, find P'.st.groups m = if m = n then some ((find P.st.groups n).getD .new) else find P.st.groups m := by
    intro m; rw [hr1]; exact find_getGroup hs.names n m
  have honly := group_change hs hs' ho hd hd' n (by rw [hr1]) (by rw [hr1]) (by rw [hr1])
    (fun j => ⟨id, by rw [hent]; cases P.st.entry j <;> rfl, fun _ => ⟨rfl, rfl⟩⟩)
    (fun m hm => by rw [hgr, if_neg hm])
  rcases groupIn_described hd' n with ⟨a, _⟩ | ⟨g', x', b1, b2, b3⟩
  · rw [hgr, if_pos rfl] at a; cases a
  rw [hgr, if_pos rfl] at b1
  refine ⟨hr2, honly, by rw [b2]; rfl, ?_⟩
  rcases groupIn_described hd n with ⟨a, a'⟩ | ⟨g, x, a1, a2, a3⟩
  · rw [a] at b1
    cases b1
    have hnil : ord ([] : List Int32) = [] := (ho []).eq_nil
    have s2 := says_described (s := P'.st) (g := .new) (ord := ord) (by rw [show Group.new.members = [] from rfl, hnil]; exact nofun) b3
    refine ⟨?_, fun h => (by rw [a'] at h; cases h), fun _ k hk => ?_⟩
    · rw [a', b2]
      show listIn x' kMembers = []
      rw [listIn_members s2, show Group.new.members = [] from rfl, hnil]; rfl
    · rw [b2]
      show getKey? x' k = _
      rw [s2, says_new k hk]
  · rw [a1] at b1
    cases b1
    have : describeGroup P'.st ord g = describeGroup P.st ord g := by
      unfold describeGroup
      rw [keypaths_congr (s := P.st)]
      intro i hi
      obtain ⟨o, hio⟩ := (hs.members n g a1).2 i ((ho _).mem_iff.1 hi)
      exact ⟨o, o, hio, by rw [hent]; exact hio, rfl⟩
    have hx : groupIn d' n = groupIn d n := by
      simp only [Option.getD_some] at b3
      rw [this, a3] at b3; cases b3; rw [b2, a2]
    exact ⟨by rw [hx], fun _ => hx, fun h => by rw [a2] at h; cases h⟩

/-- `M'` lists what `M` does, in any order, and `v`. -/
def Joined (v : Val) (M M' : List Val) : Prop := (v ∈ M → M'.Perm M) ∧ (v ∉ M → M'.Perm (M ++ [v]))

theorem addMember_shown {w : World} {P P' : Parser} (hs : Sound w P.st) {n : Bytes} {i : Int32} {o : Opt} (hi : P.st.entry i = some o) {g : Group}
    (hg : find P.st.groups n = some g) (hP' : P' = { P with st := addMember P.st n i }) {ord : List Int32 → List Int32} (ho : ∀ l, (ord l).Perm l) {d d' : Val}
    (hd : getDescription ord P = .ok d) (hd' : getDescription ord P' = .ok d') :
    OnlyGroup n d d' ∧ (∀ k, k ≠ kMembers → says (groupIn d' n) k = says (groupIn d n) k) ∧
      Joined (.str (PathM.pathString o.path)) (membersOf (groupIn d n)) (membersOf (groupIn d' n)) := by
  have hs' : Sound w P'.st := by rw [hP']; exact hs.addMember n hi
  have hent : ∀ j, P'.st.entry j = (P.st.entry j).map fun o => if j = i then { o with cfg := { o.cfg with groups := addOnce o.cfg.groups n } } else o := by
    intro j
    rw [hP']
    show (addMember P.st n i).entry j = _
    unfold addMember
    rw [entry_setCfg]; rfl
  have hgr : ∀ m, find P'.st.groups m = (find P.st.groups m).map fun g => if m = n then { g with members := addOnce g.members i } else g := by
    intro m; rw [hP']; exact find_setGroup P.st n (fun g => { g with members := addOnce g.members i }) m
  have hpv : ∀ j, pathVal P'.st j = pathVal P.st j := by
    intro j
    unfold pathVal
    rw [hent]
    cases P.st.entry j with
    | none => rfl
    | some q => simp only [Option.map_some]; split <;> rfl
  have honly := group_change hs hs' ho hd hd' n (by rw [hP']) (by rw [hP']) (by rw [hP'])
    (fun j => ⟨_, hent j, fun o => by split <;> exact ⟨rfl, rfl⟩⟩)
    (fun m hm => by rw [hgr]; cases find P.st.groups m <;> simp [hm])
  rcases groupIn_described hd n with ⟨a, _⟩ | ⟨g1, x, a1, a2, a3⟩
  · rw [hg] at a; cases a
  rw [hg] at a1; cases a1
  rcases groupIn_described hd' n with ⟨a, _⟩ | ⟨g', x', b1, b2, b3⟩
  · rw [hgr, hg] at a; cases a
  rw [hgr, hg] at b1
  simp only [Option.map_some, if_true, Option.some.injEq] at b1
  subst b1
  have s1 := says_described (fun j hj => (hs.members n g hg).2 j ((ho _).mem_iff.1 hj)) a3
  have hgn : find P'.st.groups n = some { g with members := addOnce g.members i } := by rw [hgr, hg]; simp
  have s2 := says_described (fun j hj => (hs'.members n _ hgn).2 j ((ho _).mem_iff.1 hj)) b3
  refine ⟨honly, fun k hk => ?_, ?_⟩
  · rw [a2, b2]
    show getKey? x' k = getKey? x k
    rw [s1, s2]
    unfold groupSays
    rw [if_neg hk, if_neg hk]
  · rw [a2, b2]
    show Joined _ (listIn x kMembers) (listIn x' kMembers)
    rw [listIn_members s1, listIn_members s2]
    have hpi : pathVal P.st i = .str (PathM.pathString o.path) := by unfold pathVal; rw [hi]
    rw [List.map_congr_left (g := pathVal P.st) fun j _ => hpv j, ← hpi]
    have hinj : ∀ j ∈ g.members, pathVal P.st j = pathVal P.st i → j = i := by
      intro j hj e
      obtain ⟨q, hq⟩ := (hs.members n g hg).2 j hj
      have : pathVal P.st j = .str (PathM.pathString q.path) := by unfold pathVal; rw [hq]
      rw [this, hpi] at e
      injection e with e
      have p1 := hs.reg.path j q hq
      rw [e, hs.reg.path i o hi] at p1
      cases p1; rfl
    refine ⟨fun hv => ?_, fun hv => ?_⟩
    · obtain ⟨j, hj, e⟩ := List.mem_map.1 hv
      have hj' := (ho _).mem_iff.1 hj
      rw [hinj j hj' e] at hj'
      unfold addOnce
      rw [if_pos hj']
    · have hm : i ∉ g.members := fun h => hv (List.mem_map.2 ⟨i, (ho _).mem_iff.2 h, rfl⟩)
      unfold addOnce
      rw [if_neg hm]
      refine ((ho _).map _).trans ?_
      rw [List.map_append]
      exact (((ho _).map _).symm.append_right _)

/-- **C104**: adding an entry to a group adds its key path to the members shown, unless it is one; nothing else changes. -/
theorem member_shown {w : World} {P P' : Parser} (hP : Built w P) {n kp : Bytes} (hn : (find P.st.groups n).isSome)
    (hr : (PCall.groupAdd n kp).run w P = (P', .ok ())) {ord : List Int32 → List Int32} (ho : ∀ l, (ord l).Perm l) {d d' : Val}
    (hd : getDescription ord P = .ok d) (hd' : getDescription ord P' = .ok d') :
    ∃ path, PathM.parsePath kp = .ok path ∧ (entryIn d (PathM.pathString path)).isSome ∧ OnlyGroup n d d' ∧
      (∀ k, k ≠ kMembers → says (groupIn d' n) k = says (groupIn d n) k) ∧
      Joined (.str (PathM.pathString path)) (membersOf (groupIn d n)) (membersOf (groupIn d' n)) := by
  have hs := hP.sound
  obtain ⟨g, hg⟩ := Option.isSome_iff_exists.1 hn
  have hrun : (PCall.groupAdd n kp).run w P = ({ P with st := (withVal P.st (entryNamed P.st kp) fun id => (addMember P.st n id, .ok ())).1 },
      (withVal P.st (entryNamed P.st kp) fun id => (addMember P.st n id, .ok ())).2) := by
    have : (PCall.groupAdd n kp).step w P.st = withVal P.st (entryNamed P.st kp) fun id => (addMember P.st n id, .ok ()) := by
      show (match find P.st.groups n with | none => (P.st, Out.ok ()) | some _ => _) = _
      rw [hg]
    unfold PCall.run
    rw [this]
  rw [hrun] at hr
  injection hr with hr1 hr2
  unfold entryNamed at hr1 hr2
  cases hp : PathM.parsePath kp with
  | throw e => rw [hp] at hr2; cases hr2
  | ub => rw [hp] at hr2; cases hr2
  | ok path =>
    rw [hp] at hr1 hr2
    simp only [entryAt] at hr1 hr2
    cases hf : find P.st.reg.paths (PathM.pathString path) with
    | none => rw [hf] at hr2; cases hr2
    | some i =>
      rw [hf] at hr1
      obtain ⟨o, h1, h2⟩ := hs.reg.pathOf _ _ hf
      have := addMember_shown hs h1 hg hr1.symm ho hd hd'
      rw [h2] at this
      obtain ⟨x, hx, _⟩ := (entryIn_described hs hd).1 i o h1
      rw [h2] at hx
      exact ⟨path, rfl, by rw [hx]; rfl, this⟩

/-- **C104**: adding a key path that names no entry to a group throws and leaves the parser as it was. -/
theorem no_member {w : World} {P : Parser} (hP : Built w P) {n kp : Bytes} (hn : (find P.st.groups n).isSome)
    {ord : List Int32 → List Int32} {d : Val} (hd : getDescription ord P = .ok d)
    (hk : ∀ path, PathM.parsePath kp = .ok path → entryIn d (PathM.pathString path) = none) :
    ∃ e, (PCall.groupAdd n kp).run w P = (P, .throw e) := by
  have hs := hP.sound
  obtain ⟨g, hg⟩ := Option.isSome_iff_exists.1 hn
  have hrun : (PCall.groupAdd n kp).run w P = ({ P with st := (withVal P.st (entryNamed P.st kp) fun id => (addMember P.st n id, .ok ())).1 },
      (withVal P.st (entryNamed P.st kp) fun id => (addMember P.st n id, .ok ())).2) := by
    have : (PCall.groupAdd n kp).step w P.st = withVal P.st (entryNamed P.st kp) fun id => (addMember P.st n id, .ok ()) := by
      show (match find P.st.groups n with | none => (P.st, Out.ok ()) | some _ => _) = _
      rw [hg]
    unfold PCall.run
    rw [this]
  rw [hrun]
  have hth : ∃ e, entryNamed P.st kp = .throw e := by
    unfold entryNamed
    rcases PathM.parsePath_total kp with ⟨path, hp⟩ | hp
    · rw [hp]
      cases hf : find P.st.reg.paths (PathM.pathString path) with
      | none => exact ⟨.runtime, by simp only [entryAt, hf]⟩
      | some i =>
        obtain ⟨o, h1, h2⟩ := hs.reg.pathOf _ _ hf
        obtain ⟨x, hx, _⟩ := (entryIn_described hs hd).1 i o h1
        rw [h2, hk path hp] at hx
        cases hx
    · rw [hp]; exact ⟨_, rfl⟩
  obtain ⟨e, he⟩ := hth
  rw [he]
  exact ⟨e, rfl⟩

/-! ## Cases that meet the hypotheses -/

/-- The parser after one more call. -/
def withCall (c : PCall) : Parser := (c.run exWorld exParser).1

/-- A setter that sets two keys: the type of the option at "/l/x" was not set. -/
example : ∃ o d d', exParser.st.entry 257 = some o ∧ (PCall.set 257 (.minLength 2)).run exWorld exParser = (withCall (.set 257 (.minLength 2)), .ok ()) ∧
    getDescription id exParser = .ok d ∧ getDescription id (withCall (.set 257 (.minLength 2))) = .ok d' ∧ PathM.pathString o.path = [47, 108, 47, 120] ∧
    says (entryIn d [47, 108, 47, 120]) kType = some .null ∧ says (entryIn d' [47, 108, 47, 120]) kType = some (.str wString) ∧
    says (entryIn d' [47, 108, 47, 120]) kMinLength = some (.uint 2) ∧ OnlyAt [47, 108, 47, 120] d d' := by
  refine ⟨_, _, _, rfl, rfl, rfl, rfl, rfl, rfl, rfl, rfl, ?_⟩
  exact (setter_shown exParser_built (i := 257) rfl (f := .minLength 2) rfl (fun l => .refl l) rfl rfl).1

/-- A setter that changes nothing: the choice is there. -/
example : ∃ d d', getDescription id exParser = .ok d ∧ getDescription id (withCall (.set 97 (.addChoice (.str [51])))) = .ok d' ∧ d' = d := ⟨_, _, rfl, rfl, rfl⟩

/-- A new option, with a short name that is taken, under conflict resolution. -/
example : ∃ P P' d d', Built exWorld P ∧ (PCall.addOption [122, 47, 48] 97 [122] [104] .count).run exWorld P = (P', .ok ()) ∧
    getDescription id P = .ok d ∧ getDescription id P' = .ok d' ∧ entryIn d [47, 122, 47, 48] = none ∧
    says (entryIn d' [47, 122, 47, 48]) kShortOption = none ∧ says (entryIn d' [47, 122, 47, 48]) kLongOption = some (.str [122]) ∧
    says (entryIn d' [47, 97]) kShortOption = some (.str [97]) :=
  ⟨(build exWorld (newParser [] true) (someCalls ++ [.conflictResolution true])).getD (newParser [] true), _, _, _,
    ⟨[], true, someCalls ++ [.conflictResolution true], by simp [someCalls, PCall.proper] <;> decide, rfl⟩, rfl, rfl, rfl, rfl, rfl, rfl, rfl⟩

/-- A new argument. -/
example : ∃ d d', (PCall.addArgument [122] [104]).run exWorld exParser = (withCall (.addArgument [122] [104]), .ok ()) ∧
    getDescription id exParser = .ok d ∧ getDescription id (withCall (.addArgument [122] [104])) = .ok d' ∧ entryIn d [47, 122] = none ∧
    (listIn d kArguments).length = 1 ∧ (listIn d' kArguments).length = 2 ∧ says (entryIn d' [47, 122]) kTitle = some (.str [122]) :=
  ⟨_, _, rfl, rfl, rfl, rfl, rfl, rfl, rfl⟩

/-- A setter of a group, a new group and a new member. -/
example : ∃ d d1 d2 d3, getDescription id exParser = .ok d ∧ getDescription id (withCall (.groupTitle [71] [])) = .ok d1 ∧
    getDescription id (withCall (.group [72])) = .ok d2 ∧ getDescription id (withCall (.groupAdd [71] [102])) = .ok d3 ∧
    (find exParser.st.groups [71]).isSome ∧ says (groupIn d [71]) kTitle = some (.str [84]) ∧ says (groupIn d1 [71]) kTitle = none ∧
    groupIn d [72] = none ∧ (groupIn d2 [72]).isSome ∧ (PCall.groupAdd [71] [102]).run exWorld exParser = (withCall (.groupAdd [71] [102]), .ok ()) ∧
    membersOf (groupIn d3 [71]) = membersOf (groupIn d [71]) ++ [.str [47, 102]] := ⟨_, _, _, _, rfl, rfl, rfl, rfl, rfl, rfl, rfl, rfl, rfl, rfl, rfl⟩

/-- A key path that names nothing, and one that is none at all. -/
example : ∃ d, getDescription id exParser = .ok d ∧ entryIn d [47, 122, 122] = none ∧ PathM.parsePath [122, 122] = .ok [.key [122, 122]] ∧
    (PCall.groupAdd [71] [122, 122]).run exWorld exParser = (exParser, .throw .runtime) ∧ PathM.parsePath [122, 91, 122, 93] = .throw .runtime ∧
    (PCall.groupAdd [71] [122, 91, 122, 93]).run exWorld exParser = (exParser, .throw .runtime) := ⟨_, rfl, rfl, rfl, rfl, rfl, rfl⟩

end Verif.Args
