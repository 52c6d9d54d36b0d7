import Verif.Args.DescEntry
import Verif.Args.RegProps
import Verif.Path.Props
/-!
# Merging the description of an entry into another parser
-/

namespace Verif.Args
open Verif JsonDrv Schema

/-- The settings of an entry are as every program leaves them. -/
def Told (w : World) (o : Opt) : Prop :=
  o.path ≠ [] ∧ ∃ m, o.cfg.opt = .map m ∧ AMap.Sorted m ∧ (AMap.get m kTitle).isSome ∧
    ∃ v t, AMap.get m kDescription = some v ∧ Build.asString w.fo.fltText v = .ok t

/-- Nothing of an option is lost in its description. -/
structure Lossless (o : Opt) : Prop where
  path : o.path.getLast? ≠ some (.key [])
  short : o.short ≤ 127
  type : wordType o.cfg.ty

/-- Another entry that the descriptions do not tell apart. -/
structure Alike (a b : Opt) : Prop where
  path : b.path = a.path
  short : b.short = a.short ∨ (¬ a.short > 0 ∧ ¬ b.short > 0)
  long : b.long = a.long
  desc : describeOpt b = describeOpt a
  type : a.cfg.ty ≠ .uint → b.cfg.ty = a.cfg.ty

/-- One entry more. -/
structure Added (s s' : St) (id : Int32) (o : Opt) : Prop where
  inv : Inv s'.reg
  fresh : s.entry id = none
  entry : s'.entry id = some o
  others : ∀ i, i ≠ id → s'.entry i = s.entry i
  groups : s'.groups = s.groups
  count : s.reg.count.toInt ≤ s'.reg.count.toInt ∧ s'.reg.count.toInt ≤ s.reg.count.toInt + 1

/-- Registering an option under a free path, with free names. -/
theorem addOption_free {s : Reg} (hs : Inv s) {keypath : Bytes} {path : VPath} (hp : PathM.parsePath keypath = .ok path) (hne : path ≠ []) {short : Int32}
    {long help : Bytes} (action : Action) (hc : short ≤ 255) (hn : long ≠ [] ∨ short ≠ 0)
    (h1 : find s.paths (PathM.pathString path) = none) (h2 : short > 0 → find s.shorts (toChar short) = none)
    (h3 : long ≠ [] → find s.longs long = none) (h4 : s.count ≠ Int32.maxValue) :
    ∃ t id o, addOption s keypath short long help action = (t, .ok id) ∧ newOpt id path short long help action = .ok o ∧ Inv t ∧
      find s.optionMap id = none ∧ find t.optionMap id = some o ∧ (∀ i, i ≠ id → find t.optionMap i = find s.optionMap i) ∧
      t.options = s.options ++ [id] ∧ t.arguments = s.arguments ∧ s.count.toInt ≤ t.count.toInt ∧ t.count.toInt ≤ s.count.toInt + 1 := by
  obtain ⟨t0, id, hid, hcnt⟩ : ∃ t0 id, nextId s short = (t0, .ok id) ∧ t0.count.toInt ≤ s.count.toInt + 1 := by
    unfold nextId
    by_cases h : short > 0
    · rw [if_pos h]; exact ⟨_, _, rfl, by omega⟩
    · rw [if_neg h, if_neg h4]; exact ⟨_, _, rfl, by simp only [toInt_succ h4]; omega⟩
  have hck : checkExisting s path short long = (t0, .ok (id, short)) := by
    unfold checkExisting
    rw [if_neg (by simp [h1])]
    have : checkShort s short = .ok short := by
      unfold checkShort
      rw [if_neg]
      rintro ⟨h, h'⟩
      rw [h2 h] at h'; cases h'
    rw [this]
    simp only []
    rw [if_neg (by rintro ⟨h, h'⟩; rw [h3 h] at h'; cases h'), hid]
  have hnw : ∃ o, newOpt id path short long help action = .ok o := by
    unfold newOpt
    simp only []
    cases hl : path.getLast? with
    | none => exact absurd (List.getLast?_eq_none_iff.1 hl) hne
    | some e => cases e <;> exact ⟨_, rfl⟩
  obtain ⟨o, ho⟩ := hnw
  have hadd : addOption s keypath short long help action = (enterOption t0 o, .ok id) := by
    unfold addOption
    rw [hp]
    simp only []
    rw [hck]
    simp only []
    rw [if_neg (by rintro ⟨h, h'⟩; rcases hn with h5 | h5 <;> contradiction), ho]
  obtain ⟨t1, r1, e1, g1, g2, _, g3, _⟩ := checkExisting_cases s path short long
  rw [hck] at e1
  cases e1
  have hF := (g3 id short rfl).1
  obtain ⟨f1, f2, f3, f4, f5, f6⟩ := newOpt_fields ho
  have hsh : short.toInt ≤ 256 := by
    have := Int32.le_iff_toInt_le.1 hc
    have h255 : (255 : Int32).toInt = 255 := by decide
    omega
  have hun := hF.unused hs hsh
  have hf : ∀ k, find (enterOption t0 o).optionMap k = if id = k then some o else find s.optionMap k := by
    intro k
    show find (insert ltInt t0.optionMap o.id o) k = _
    rw [g1.2.2.1, f1]
    exact find_insert _ _ hun k
  refine ⟨_, id, o, hadd, rfl.trans ho, addOption_inv hs hc hadd nofun, hun, by rw [hf, if_pos rfl],
    fun i hi => by rw [hf, if_neg (fun e => hi e.symm)], ?_, g1.2.1, g2, hcnt⟩
  show t0.options ++ [o.id] = _
  rw [g1.1, f1]

/-- Registering an argument under a free path. -/
theorem addArgument_free {s : Reg} (hs : Inv s) {keypath : Bytes} {path : VPath} (hp : PathM.parsePath keypath = .ok path) (hne : path ≠ [])
    {help : Bytes} (action : Action) (h1 : find s.paths (PathM.pathString path) = none) (h4 : s.count ≠ Int32.maxValue) :
    ∃ t id o, addArgument s keypath help action = (t, .ok id) ∧ newOpt id path 0 [] help action = .ok o ∧ Inv t ∧
      find s.optionMap id = none ∧ find t.optionMap id = some { o with cfg := argDefaults o.cfg } ∧
      (∀ i, i ≠ id → find t.optionMap i = find s.optionMap i) ∧
      t.options = s.options ∧ t.arguments = s.arguments ++ [id] ∧ s.count.toInt ≤ t.count.toInt ∧ t.count.toInt ≤ s.count.toInt + 1 := by
  have hid : ∃ t0 id, nextId s 0 = (t0, .ok id) ∧ t0.count.toInt ≤ s.count.toInt + 1 := by
    unfold nextId
    rw [if_neg (by decide), if_neg h4]; exact ⟨_, _, rfl, by simp only [toInt_succ h4]; omega⟩
  obtain ⟨t0, id, hid, hcnt⟩ := hid
  have hck : checkExisting s path 0 [] = (t0, .ok (id, 0)) := by
    unfold checkExisting
    rw [if_neg (by simp [h1])]
    have : checkShort s 0 = .ok 0 := by
      unfold checkShort
      rw [if_neg]
      rintro ⟨h, _⟩
      exact absurd h (by decide)
    rw [this]
    simp only []
    rw [if_neg (by rintro ⟨h, _⟩; exact h rfl), hid]
  have hnw : ∃ o, newOpt id path 0 [] help action = .ok o := by
    unfold newOpt
    simp only []
    cases hl : path.getLast? with
    | none => exact absurd (List.getLast?_eq_none_iff.1 hl) hne
    | some e => cases e <;> exact ⟨_, rfl⟩
  obtain ⟨o, ho⟩ := hnw
  have hadd : addArgument s keypath help action = (enterArgument t0 o, .ok id) := by
    unfold addArgument
    rw [hp]
    simp only []
    rw [hck]
    simp only []
    rw [ho]
  obtain ⟨t1, r1, e1, g1, g2, _, g3, _⟩ := checkExisting_cases s path 0 []
  rw [hck] at e1
  cases e1
  have hF := (g3 id 0 rfl).1
  obtain ⟨f1, f2, f3, f4, f5, f6⟩ := newOpt_fields ho
  have hun := hF.unused hs (by decide)
  have hf : ∀ k, find (enterArgument t0 o).optionMap k = if id = k then some { o with cfg := argDefaults o.cfg } else find s.optionMap k := by
    intro k
    show find (insert ltInt t0.optionMap o.id _) k = _
    rw [g1.2.2.1, f1]
    exact find_insert _ _ hun k
  refine ⟨_, id, o, hadd, rfl.trans ho, addArgument_inv hs hadd nofun, hun, by rw [hf, if_pos rfl],
    fun i hi => by rw [hf, if_neg (fun e => hi e.symm)], g1.1, ?_, g2, hcnt⟩
  show t0.arguments ++ [o.id] = _
  rw [g1.2.1, f1]

/-! ## Init -/

theorem entry_setCfg (s : St) (id : Int32) (f : Config → Config) (k : Int32) :
    (setCfg s id f).entry k = (s.entry k).map fun o => if k = id then { o with cfg := f o.cfg } else o := find_update _ _ _ _

theorem inv_setCfg {s : St} (h : Inv s.reg) (id : Int32) (f : Config → Config) : Inv (setCfg s id f).reg := h.update id f

/-- `Init` with the description of an entry. -/
theorem initOpt_described {s : St} {id : Int32} {e : Opt} (he : s.entry id = some e) {D : List (Bytes × Val)} {t : Ty} {r a : Bool} {x : Val}
    (h1 : AMap.get D kType = some x) (h1' : parseType x = .ok t) (h2 : AMap.get D kRequired = some (.bool r)) (h3 : AMap.get D kAdvanced = some (.bool a)) :
    ∃ s', initOpt s id (.map D) = (s', .ok ()) ∧ s'.groups = s.groups ∧ s'.reg.options = s.reg.options ∧ s'.reg.arguments = s.reg.arguments ∧
      s'.reg.count = s.reg.count ∧ (Inv s.reg → Inv s'.reg) ∧ s'.haveAdvanced = (s.haveAdvanced || a) ∧
      (∀ i, i ≠ id → s'.entry i = s.entry i) ∧
      s'.entry id = some { e with cfg := mergeOpt { e.cfg with ty := t, required := r, advanced := a } D } := by
  have ht : typeIn (.map D) e.cfg.ty = .ok t := by
    show (match AMap.get D kType with | none => Out.ok e.cfg.ty | some v => parseType v) = _
    rw [h1]; exact h1'
  have hr : boolOr (.map D) kRequired e.cfg.required = .ok r := by
    show (match AMap.get D kRequired with | none => Out.ok e.cfg.required | some v => asBool v) = _
    rw [h2]; rfl
  have ha : boolOr (.map D) kAdvanced false = .ok a := by
    show (match AMap.get D kAdvanced with | none => Out.ok false | some v => asBool v) = _
    rw [h3]; rfl
  unfold initOpt
  rw [he]
  simp only []
  rw [ht]
  simp only [withVal]
  rw [hr]
  simp only []
  rw [ha]
  simp only [initMerge]
  refine ⟨_, rfl, rfl, rfl, rfl, rfl, fun h => ?_, rfl, fun i hi => ?_, ?_⟩
  · exact inv_setCfg (s := setAdvanced _ _ _) (inv_setCfg (s := setCfg _ _ _) (inv_setCfg (s := setCfg _ _ _) (inv_setCfg h _ _) _ _) _ _) _ _
  · rw [entry_setCfg]
    show Option.map _ ((setCfg _ _ _).entry i) = _
    rw [entry_setCfg, entry_setCfg, entry_setCfg]
    cases s.entry i <;> simp [hi]
  · rw [entry_setCfg]
    show Option.map _ ((setCfg _ _ _).entry id) = _
    rw [entry_setCfg, entry_setCfg, entry_setCfg, he]
    simp

/-! ## One entry -/

theorem newOpt_start {id path short long help action o} (h : newOpt id path short long help action = .ok o) :
    ∃ t, o.cfg = ⟨.null, [], action, false, false, .map [(kDescription, .str help), (kTitle, .str t)]⟩ := by
  unfold newOpt at h
  dsimp only at h
  split at h <;> cases h <;> exact ⟨_, rfl⟩

/-- What the description of an entry says. -/
theorem described {w : World} {o : Opt} (ho : Told w o) {d : Val} (h : describeOpt o = .ok d) :
    ∃ D a m, d = .map D ∧ actionWord o.cfg.action = .ok a ∧ o.cfg.opt = .map m ∧ AMap.Sorted m ∧ AMap.Sorted D ∧
      (∀ k, AMap.get D k = (extra o a k).getD (AMap.get m k)) ∧ (AMap.get D kTitle).isSome ∧
      ∃ v t, AMap.get D kDescription = some v ∧ Build.asString w.fo.fltText v = .ok t := by
  obtain ⟨_, m, hm, hs, ht, v, t, hv, hvt⟩ := ho
  obtain ⟨a, ha⟩ := describeOpt_action h
  obtain ⟨D, hD, hDs, hg⟩ := describeOpt_ok hm hs ha
  rw [hD] at h
  cases h
  refine ⟨D, a, m, rfl, ha, hm, hs, hDs, hg, ?_, v, t, ?_, hvt⟩
  · rw [hg]; exact ht
  · rw [hg]; exact hv

/-- An entry whose settings are a described entry's on top of what a new one has is described the same. -/
theorem describe_again {o o' : Opt} {a : Bytes} {m b D : List (Bytes × Val)} (hb : AMap.Sorted b) (hD : AMap.Sorted D)
    (hg : ∀ k, AMap.get D k = (extra o a k).getD (AMap.get m k)) (hsub : ∀ k, (AMap.get b k).isSome → (AMap.get D k).isSome)
    (ha : actionWord o'.cfg.action = .ok a) (ho : o'.cfg.opt = .map (mergeKeys b D)) (hx : extra o' a = extra o a) :
    describeOpt o' = .ok (.map D) := by
  obtain ⟨D', h1, h2, h3⟩ := describeOpt_ok ho (sorted_mergeKeys hb D) ha
  rw [h1]
  congr 2
  refine AMap.ext h2 hD fun k => ?_
  rw [h3, hx, get_mergeKeys hD]
  cases he : extra o a k with
  | some x => rw [hg, he]; rfl
  | none =>
    show (AMap.get D k).or (AMap.get b k) = _
    cases hk : AMap.get D k with
    | some x => rfl
    | none =>
      cases hk' : AMap.get b k with
      | none => rfl
      | some x => have := hsub k (by rw [hk']; rfl); rw [hk] at this; cases this

theorem extra_of {o o' : Opt} (a : Bytes) (h1 : o'.cfg.advanced = o.cfg.advanced) (h2 : o'.path = o.path) (h3 : o'.cfg.required = o.cfg.required)
    (h4 : o'.long = o.long) (h5 : o'.short = o.short ∨ (¬ o.short > 0 ∧ ¬ o'.short > 0)) (h6 : typeVal o'.cfg.ty = typeVal o.cfg.ty) :
    extra o' a = extra o a := by
  funext k
  unfold extra
  rw [h1, h2, h3, h4, h6]
  rcases h5 with h5 | ⟨h5, h5'⟩
  · rw [h5]
  · rw [if_neg h5, if_neg h5']

/-- Merging the description of an option. -/
theorem mergeOption_described {w : World} {s : St} (hs : Inv s.reg) {o : Opt} (ho : Told w o) (hl : Lossless o) (hn : o.long ≠ [] ∨ o.short > 0)
    {d : Val} (hd : describeOpt o = .ok d) (h1 : find s.reg.paths (PathM.pathString o.path) = none)
    (h2 : o.short > 0 → find s.reg.shorts (toChar o.short) = none)
    (h3 : o.long ≠ [] → find s.reg.longs o.long = none) (h4 : s.reg.count ≠ Int32.maxValue) :
    ∃ s' id o', mergeOption w s (PathM.pathString o.path, d) = (s', .ok ()) ∧ Added s s' id o' ∧ s'.reg.options = s.reg.options ++ [id] ∧
      s'.reg.arguments = s.reg.arguments ∧ Alike o o' := by
  obtain ⟨D, a, m, rfl, ha, hm, hms, hDs, hg, ht, v, help, hv, hvt⟩ := described ho hd
  -- what the description says
  have gShort : AMap.get D kShortOption = if o.short > 0 then some (.str [(toChar o.short).toUInt8]) else none := by rw [hg]; rfl
  have gLong : AMap.get D kLongOption = if o.long ≠ [] then some (.str o.long) else none := by rw [hg]; rfl
  have gAction : AMap.get D kAction = some (.str a) := by rw [hg]; rfl
  have gType : AMap.get D kType = some (typeVal o.cfg.ty) := by rw [hg]; rfl
  have gReq : AMap.get D kRequired = some (.bool o.cfg.required) := by rw [hg]; rfl
  have gAdv : AMap.get D kAdvanced = some (.bool o.cfg.advanced) := by rw [hg]; rfl
  obtain ⟨ty, hty, hty', hty''⟩ := parse_typeVal hl.type
  -- reading it
  have rShort : ∃ sh, shortIn w (.map D) = .ok sh ∧ (sh = o.short ∨ (¬ o.short > 0 ∧ sh = 0)) := by
    show ∃ sh, (match AMap.get D kShortOption with | none => Out.ok (0 : Int32) | some v => firstChar <$> Build.asString w.fo.fltText v) = _ ∧ _
    rw [gShort]
    by_cases h : o.short > 0
    · rw [if_pos h]; exact ⟨_, rfl, .inl (firstChar_short h hl.short)⟩
    · rw [if_neg h]; exact ⟨_, rfl, .inr ⟨h, rfl⟩⟩
  obtain ⟨sh, rShort, hsh⟩ := rShort
  have rLong : textOr w (.map D) kLongOption [] = .ok o.long := by
    show (match AMap.get D kLongOption with | none => Out.ok [] | some v => Build.asString w.fo.fltText v) = _
    rw [gLong]
    by_cases h : o.long ≠ []
    · rw [if_pos h]; rfl
    · rw [if_neg h]; have : o.long = [] := Classical.byContradiction h
      rw [this]
  have rHelp : textOr w (.map D) kDescription [] = .ok help := by
    show (match AMap.get D kDescription with | none => Out.ok [] | some v => Build.asString w.fo.fltText v) = _
    rw [hv]; exact hvt
  have rAction : textOr w (.map D) kAction wStore = .ok a := by
    show (match AMap.get D kAction with | none => Out.ok wStore | some v => Build.asString w.fo.fltText v) = _
    rw [gAction]; rfl
  have hsh' : sh > 0 → sh = o.short := by
    rintro h
    rcases hsh with h' | ⟨_, h'⟩
    · exact h'
    · rw [h'] at h; exact absurd h (by decide)
  have hpos : sh ≤ 255 := by
    have e127 : (127 : Int32).toInt = 127 := by decide
    have e255 : (255 : Int32).toInt = 255 := by decide
    have := Int32.le_iff_toInt_le.1 hl.short
    rcases hsh with h' | ⟨_, h'⟩
    · rw [h']; exact Int32.le_iff_toInt_le.2 (by omega)
    · rw [h']; decide
  have hnm : o.long ≠ [] ∨ sh ≠ 0 := by
    rcases hn with h | h
    · exact .inl h
    · refine .inr ?_
      rcases hsh with h' | ⟨h', _⟩
      · rintro rfl; rw [← h'] at h; exact absurd h (by decide)
      · exact absurd h h'
  obtain ⟨t, id, o0, hadd, hnew, hinv, hun, hent, hoth, hop, har, hc1, hc2⟩ :=
    addOption_free hs (PathM.parsePath_pathString _ hl.path) ho.1 (help := help) (actionOf a) hpos hnm h1
      (fun h => by have := hsh' h; subst this; exact h2 h) h3 h4
  obtain ⟨f1, f2, f3, f4, f5, f6⟩ := newOpt_fields hnew
  obtain ⟨ttl, hcfg⟩ := newOpt_start hnew
  obtain ⟨s', hi, i1, i2, i3, i4, i5, _, i6, i7⟩ :=
    initOpt_described (s := { s with reg := t }) (id := id) hent gType hty gReq gAdv
  refine ⟨s', id, _, ?_, ⟨i5 hinv, hun, i7, fun i hi => (i6 i hi).trans (hoth i hi), i1, ?_⟩, ?_, ?_, ?_⟩
  · unfold mergeOption
    simp only [rShort, rLong, rHelp, rAction, withVal, hadd, onReg]
    exact hi
  · rw [i4]; exact ⟨hc1, hc2⟩
  · rw [i2]; exact hop
  · rw [i3]; exact har
  · have hshort : o0.short = o.short ∨ (¬ o.short > 0 ∧ ¬ o0.short > 0) := by
      rw [f3]
      rcases hsh with h | ⟨h, h'⟩
      · exact .inl h
      · exact .inr ⟨h, by rw [h']; decide⟩
    refine ⟨f2, hshort, f4, ?_, hty''⟩
    rw [hd]
    have hopt : (mergeOpt { o0.cfg with ty := ty, required := o.cfg.required, advanced := o.cfg.advanced } D).opt =
        .map (mergeKeys [(kDescription, .str help), (kTitle, .str ttl)] D) := by
      rw [hcfg]; rfl
    refine describe_again (o := o) (a := a) (m := m) (b := [(kDescription, .str help), (kTitle, .str ttl)]) ?_ hDs hg ?_ ?_ hopt ?_
    · exact ⟨fun p hp => by simp at hp; subst hp; exact (by decide : keyLt kDescription kTitle = true), (by intro p hp; cases hp), trivial⟩
    · intro k hk
      simp only [AMap.get] at hk
      split at hk
      · rename_i e; subst e; rw [hv]; rfl
      · split at hk
        · rename_i e; subst e; exact ht
        · cases hk
    · show actionWord o0.cfg.action = _
      rw [f5, actionOf_word ha]; exact ha
    · exact extra_of a rfl f2 rfl f4 hshort hty'

/-- Merging the description of an argument. -/
theorem mergeArgument_described {w : World} {s : St} (hs : Inv s.reg) {o : Opt} (ho : Told w o) (hl : Lossless o)
    (hsh : ¬ o.short > 0) (hlg : o.long = [])
    (hmin : (optGet o.cfg kMinArgs).isSome) (hmax : (optGet o.cfg kMaxArgs).isSome)
    {d : Val} (hd : describeOpt o = .ok d) (h1 : find s.reg.paths (PathM.pathString o.path) = none) (h4 : s.reg.count ≠ Int32.maxValue) :
    ∃ s' id o', mergeArgument w s d = (s', .ok ()) ∧ Added s s' id o' ∧ s'.reg.options = s.reg.options ∧
      s'.reg.arguments = s.reg.arguments ++ [id] ∧ Alike o o' := by
  obtain ⟨D, a, m, rfl, ha, hm, hms, hDs, hg, ht, v, help, hv, hvt⟩ := described ho hd
  have gAction : AMap.get D kAction = some (.str a) := by rw [hg]; rfl
  have gPath : AMap.get D kKeypath = some (.str (PathM.pathString o.path)) := by rw [hg]; rfl
  have gType : AMap.get D kType = some (typeVal o.cfg.ty) := by rw [hg]; rfl
  have gReq : AMap.get D kRequired = some (.bool o.cfg.required) := by rw [hg]; rfl
  have gAdv : AMap.get D kAdvanced = some (.bool o.cfg.advanced) := by rw [hg]; rfl
  have gMin : (AMap.get D kMinArgs).isSome := by
    rw [hg]; unfold optGet at hmin; rw [hm] at hmin; exact hmin
  have gMax : (AMap.get D kMaxArgs).isSome := by
    rw [hg]; unfold optGet at hmax; rw [hm] at hmax; exact hmax
  obtain ⟨ty, hty, hty', hty''⟩ := parse_typeVal hl.type
  have rHelp : textOr w (.map D) kDescription [] = .ok help := by
    show (match AMap.get D kDescription with | none => Out.ok [] | some v => Build.asString w.fo.fltText v) = _
    rw [hv]; exact hvt
  have rAction : textOr w (.map D) kAction wStore = .ok a := by
    show (match AMap.get D kAction with | none => Out.ok wStore | some v => Build.asString w.fo.fltText v) = _
    rw [gAction]; rfl
  obtain ⟨t, id, o0, hadd, hnew, hinv, hun, hent, hoth, hop, har, hc1, hc2⟩ :=
    addArgument_free hs (PathM.parsePath_pathString _ hl.path) ho.1 (help := help) (actionOf a) h1 h4
  obtain ⟨f1, f2, f3, f4, f5, f6⟩ := newOpt_fields hnew
  obtain ⟨ttl, hcfg⟩ := newOpt_start hnew
  obtain ⟨s', hi, i1, i2, i3, i4, i5, _, i6, i7⟩ :=
    initOpt_described (s := { s with reg := t }) (id := id) hent gType hty gReq gAdv
  refine ⟨s', id, _, ?_, ⟨i5 hinv, hun, i7, fun i hi => (i6 i hi).trans (hoth i hi), i1, ?_⟩, ?_, ?_, ?_⟩
  · have gP : getKey? (.map D) kKeypath = some (.str (PathM.pathString o.path)) := gPath
    unfold mergeArgument
    simp only [gP, rHelp, rAction, withVal, Build.asString, hadd, onReg]
    exact hi
  · rw [i4]; exact ⟨hc1, hc2⟩
  · rw [i2]; exact hop
  · rw [i3]; exact har
  · have hshort : o0.short = o.short ∨ (¬ o.short > 0 ∧ ¬ o0.short > 0) := .inr ⟨hsh, by rw [f3]; decide⟩
    refine ⟨f2, hshort, f4.trans hlg.symm, ?_, hty''⟩
    rw [hd]
    have hopt : (mergeOpt { argDefaults o0.cfg with ty := ty, required := o.cfg.required, advanced := o.cfg.advanced } D).opt =
        .map (mergeKeys (AMap.set (AMap.set [(kDescription, .str help), (kTitle, .str ttl)] kMaxArgs (.int 1)) kMinArgs (.int 1)) D) := by
      rw [hcfg]; rfl
    have hb : AMap.Sorted [(kDescription, Val.str help), (kTitle, .str ttl)] :=
      ⟨fun p hp => by simp at hp; subst hp; exact (by decide : keyLt kDescription kTitle = true), (by intro p hp; cases hp), trivial⟩
    refine describe_again (o := o) (a := a) (m := m) (AMap.sorted_set (AMap.sorted_set hb _ _) _ _) hDs hg ?_ ?_ hopt ?_
    · intro k hk
      rw [get_set, get_set] at hk
      split at hk
      · rename_i e; subst e; exact gMin
      · split at hk
        · rename_i e; subst e; exact gMax
        · simp only [AMap.get] at hk
          split at hk
          · rename_i e; subst e; rw [hv]; rfl
          · split at hk
            · rename_i e; subst e; exact ht
            · cases hk
    · show actionWord o0.cfg.action = _
      rw [f5, actionOf_word ha]; exact ha
    · exact extra_of a rfl f2 rfl (f4.trans hlg.symm) hshort hty'

end Verif.Args
