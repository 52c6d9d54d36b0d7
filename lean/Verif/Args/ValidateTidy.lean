import Verif.Args.DescSound
import Verif.Args.ValidateWhole
/-!
# What the calls of a program leave in the tables of the entries
-/

namespace Verif.Args
open Verif JsonDrv Schema

variable {w : World} {s : St} {F : Bytes → Val → Prop} {N : Prop}

/-- The entry has a name on the command line. -/
def Named (o : Opt) : Prop := o.short > 0 ∨ o.long ≠ []

/-- The settings have the form `F`. -/
def Neat (F : Bytes → Val → Prop) (c : Config) : Prop := ∀ k v, optGet c k = some v → F k v

/-- All settings have the form `F`; if `N`, all options have names. -/
structure Tidy (F : Bytes → Val → Prop) (N : Prop) (s : St) : Prop where
  forms : ∀ i o, s.entry i = some o → Neat F o.cfg
  env : ∀ i o, s.entry i = some o → Named o → ∀ v, optGet o.cfg kEnv = some v → IsText v
  named : N → ∀ i ∈ s.reg.options, ∀ o, s.entry i = some o → Named o

/-- The settings of a new entry have the form. -/
structure Start (F : Bytes → Val → Prop) : Prop where
  title : ∀ t, F kTitle (.str t)
  description : ∀ t, F kDescription (.str t)
  minArgs : F kMinArgs (.int 1)
  maxArgs : F kMaxArgs (.int 1)

/-- What is asked of the description of an option. -/
structure OptionFit (w : World) (F : Bytes → Val → Prop) (N : Prop) (v : Val) : Prop where
  forms : ∀ k x, getKey? v k = some x → F k x
  env : ∀ x, getKey? v kEnv = some x → IsText x
  named : N → ∀ short long, shortIn w v = .ok short → textOr w v kLongOption [] = .ok long → 0 ≤ short ∨ long ≠ []

/-- What is asked of a call. -/
def PCall.fit (w : World) (F : Bytes → Val → Prop) (N : Prop) : PCall → Prop
  | .addOption _ short long _ _ => N → 0 ≤ short ∨ long ≠ []
  | .set _ f => ∀ c, Neat F c → Neat F (f.run w.p c).1
  | .merge d => (∀ e ∈ mapIn d kOptions, OptionFit w F N e.2) ∧ ∀ v ∈ listIn d kArguments, ∀ k x, getKey? v k = some x → F k x
  | _ => True

/-! ## Tables -/

theorem optGet_setOpt (c : Config) (k : Bytes) (v : Val) (k' : Bytes) {x : Val} (h : optGet (setOpt c k v) k' = some x) :
    (k' = k ∧ x = v) ∨ optGet c k' = some x := by
  unfold optGet setOpt at *
  cases hc : c.opt with
  | map m =>
    rw [hc] at h
    replace h : AMap.get (AMap.set m k v) k' = some x := h
    rw [get_set] at h
    split at h
    · rename_i e; cases h; exact .inl ⟨e, rfl⟩
    · exact .inr h
  | _ => rw [hc] at h; exact .inr h

theorem optGet_mergeOpt (c : Config) (o : List (Bytes × Val)) (k' : Bytes) {x : Val} (h : optGet (mergeOpt c o) k' = some x) :
    (k', x) ∈ o ∨ optGet c k' = some x := by
  unfold optGet mergeOpt at *
  cases hc : c.opt with
  | map m =>
    rw [hc] at h
    replace h : AMap.get (mergeKeys m o) k' = some x := h
    rcases get_mergeKeys_any (m := m) (o := o) (k := k') with e | ⟨v, h1, h2⟩
    · rw [e] at h; exact .inr h
    · rw [h2] at h; cases h; exact .inl h1
  | _ => rw [hc] at h; exact .inr h

theorem Neat.setOpt {c : Config} (h : Neat F c) {k : Bytes} {v : Val} (hv : F k v) : Neat F (setOpt c k v) := by
  intro k' x hx
  rcases optGet_setOpt c k v k' hx with ⟨rfl, rfl⟩ | hx
  · exact hv
  · exact h _ _ hx

theorem Neat.same {c c' : Config} (h : Neat F c) (e : c'.opt = c.opt) : Neat F c' := fun k v hv => h k v (by unfold optGet at *; rw [← e]; exact hv)

/-- Setters leave texts under `env`. -/
theorem Setter.env_text (p : Nat) {c : Config} (h : ∀ v, optGet c kEnv = some v → IsText v) (f : Setter) :
    ∀ v, optGet (f.run p c).1 kEnv = some v → IsText v := by
  have hs : ∀ (c' : Config) k v, c'.opt = c.opt → k ≠ kEnv → ∀ x, optGet (setOpt c' k v) kEnv = some x → IsText x := by
    intro c' k v e hk x hx
    rcases optGet_setOpt c' k v kEnv hx with ⟨e, _⟩ | hx
    · exact absurd e.symm hk
    · exact h x (by unfold optGet at *; rw [← e]; exact hx)
  cases f with
  | title t => exact hs c _ _ rfl (by decide)
  | action a => simp only [Setter.run]; split <;> exact h
  | actionName a => simp only [Setter.run]; split <;> exact h
  | type t => simp only [Setter.run]; split <;> exact h
  | typeName t => simp only [Setter.run]; split <;> exact h
  | const v => exact hs c _ _ rfl (by decide)
  | default v => exact hs c _ _ rfl (by decide)
  | env t =>
    intro x hx
    rcases optGet_setOpt c _ _ kEnv hx with ⟨_, e⟩ | hx
    · exact ⟨t, e⟩
    · exact h x hx
  | minimum v =>
    simp only [Setter.run, setLimit]
    split
    · exact hs (defaultType c .flt) _ _ rfl (by decide)
    · exact h
  | maximum v =>
    simp only [Setter.run, setLimit]
    split
    · exact hs (defaultType c .flt) _ _ rfl (by decide)
    · exact h
  | addChoice v =>
    simp only [Setter.run, withChoice]
    split
    · exact hs c _ _ rfl (by decide)
    · dsimp only
      split
      · exact h
      · exact hs c _ _ rfl (by decide)
    · exact h
    · exact h
  | setChoices vs => exact hs c _ _ rfl (by decide)
  | required on => exact h
  | help t => exact hs c _ _ rfl (by decide)
  | pattern t => exact hs (defaultType c .str) _ _ rfl (by decide)
  | maxLength n => exact hs (defaultType c .str) _ _ rfl (by decide)
  | minLength n => exact hs (defaultType c .str) _ _ rfl (by decide)
  | minArgs n => exact hs c kMinArgs _ rfl (by decide)
  | maxArgs n => exact hs c _ _ rfl (by decide)
  | numArgs n =>
    intro x hx
    rcases optGet_setOpt _ _ _ kEnv hx with ⟨e, _⟩ | hx
    · exact absurd e (by decide)
    · exact hs c kMinArgs _ rfl (by decide) x hx
  | advanced b => exact h

/-! ## Steps -/

theorem Tidy.of_eq {s' : St} (h : Tidy F N s) (h1 : s'.reg = s.reg) : Tidy F N s' := by
  have he : ∀ i, s'.entry i = s.entry i := fun i => by unfold St.entry; rw [h1]
  exact ⟨fun i o ho => h.forms i o (by rw [← he]; exact ho), fun i o ho => h.env i o (by rw [← he]; exact ho),
    fun hN i hi o ho => h.named hN i (by rw [← h1]; exact hi) o (by rw [← he]; exact ho)⟩

theorem Tidy.setCfg (h : Tidy F N s) (id : Int32) (f : Config → Config)
    (hf : ∀ o, s.entry id = some o → Neat F (f o.cfg) ∧ (Named o → ∀ v, optGet (f o.cfg) kEnv = some v → IsText v)) : Tidy F N (setCfg s id f) := by
  have hk : ∀ i o', (Args.setCfg s id f).entry i = some o' → ∃ o, s.entry i = some o ∧ o'.short = o.short ∧ o'.long = o.long ∧
      Neat F o'.cfg ∧ (Named o → ∀ v, optGet o'.cfg kEnv = some v → IsText v) := by
    intro i o' h'
    rw [entry_setCfg] at h'
    cases ho : s.entry i with
    | none => rw [ho] at h'; cases h'
    | some o =>
      rw [ho] at h'
      simp only [Option.map_some, Option.some.injEq] at h'
      subst h'
      by_cases e : i = id
      · subst e
        simp only [if_pos rfl]
        exact ⟨o, rfl, rfl, rfl, (hf o ho).1, (hf o ho).2⟩
      · simp only [if_neg e]
        exact ⟨o, rfl, rfl, rfl, h.forms i o ho, h.env i o ho⟩
  have hn : ∀ {o o' : Opt}, o'.short = o.short → o'.long = o.long → (Named o' ↔ Named o) := by
    intro o o' h1 h2; unfold Named; rw [h1, h2]
  refine ⟨fun i o ho => ?_, fun i o ho hN => ?_, fun hN i hi o ho => ?_⟩
  · obtain ⟨_, _, _, _, h4, _⟩ := hk i o ho; exact h4
  · obtain ⟨_, _, h2, h3, _, h5⟩ := hk i o ho; exact h5 ((hn h2 h3).1 hN)
  · obtain ⟨o', h1, h2, h3, _, _⟩ := hk i o ho
    exact (hn h2 h3).2 (h.named hN i hi o' h1)

/-- A change of the other fields. -/
theorem Tidy.setOther (h : Tidy F N s) (id : Int32) (f : Config → Config) (hf : ∀ c, (f c).opt = c.opt) : Tidy F N (Args.setCfg s id f) :=
  h.setCfg id f fun o ho => ⟨(h.forms id o ho).same (hf _), fun hn v hv => h.env id o ho hn v (by unfold optGet at *; rw [← hf]; exact hv)⟩

theorem Tidy.sameReg {t : Reg} (h : Tidy F N s) (hs : SameEntries s.reg t) : Tidy F N { s with reg := t } := by
  refine ⟨fun i o ho => h.forms i o ?_, fun i o ho => h.env i o ?_, fun hN i hi o ho => h.named hN i ?_ o ?_⟩
  · rw [show St.entry { s with reg := t } i = find t.optionMap i from rfl, hs.2.2.1] at ho; exact ho
  · rw [show St.entry { s with reg := t } i = find t.optionMap i from rfl, hs.2.2.1] at ho; exact ho
  · rw [← hs.1]; exact hi
  · rw [show St.entry { s with reg := t } i = find t.optionMap i from rfl, hs.2.2.1] at ho; exact ho

theorem newOpt_neat (hF : Start F) {id path short long help action o} (h : newOpt id path short long help action = .ok o) :
    Neat F o.cfg ∧ optGet o.cfg kEnv = none := by
  obtain ⟨t, hc⟩ := newOpt_start h
  rw [hc]
  refine ⟨fun k v hv => ?_, rfl⟩
  replace hv : AMap.get [(kDescription, Val.str help), (kTitle, Val.str t)] k = some v := hv
  simp only [AMap.get] at hv
  split at hv
  · rename_i e; cases hv; subst e; exact hF.description _
  · split at hv
    · rename_i e; cases hv; subst e; exact hF.title _
    · cases hv

theorem addOption_entered {r : Reg} {keypath : Bytes} {short : Int32} {long help : Bytes} {action : Action} {t : Reg} {id : Int32}
    (e : addOption r keypath short long help action = (t, .ok id)) :
    ∃ t0 path o short', Fresh r t0 path long id short' ∧ (short' = short ∨ (short' = 0 ∧ Dropped r short)) ∧ ¬ (long = [] ∧ short' = 0) ∧
      newOpt id path short' long help action = .ok o ∧ t = enterOption t0 o := by
  unfold addOption at e
  cases hp : PathM.parsePath keypath with
  | throw x => rw [hp] at e; cases e
  | ub => rw [hp] at e; cases e
  | ok path =>
    obtain ⟨t0, x, e0, hs, hc, hr, hok, hth⟩ := checkExisting_cases r path short long
    rw [hp] at e
    dsimp only at e
    rw [e0] at e
    match x with
    | .throw _ => cases e
    | .ub => cases e
    | .ok (id', sh) =>
      obtain ⟨h1, h2⟩ := hok id' sh rfl
      dsimp only at e
      by_cases h3 : long = [] ∧ sh = 0
      · rw [if_pos h3] at e; cases e
      · rw [if_neg h3] at e
        cases h4 : newOpt id' path sh long help action with
        | throw _ => rw [h4] at e; cases e
        | ub => rw [h4] at e; cases e
        | ok o => rw [h4] at e; cases e; exact ⟨t0, path, o, sh, h1, h2, h3, h4, rfl⟩

theorem Tidy.addOption (hF : Start F) (hs : Sound w s) (h : Tidy F N s) {k : Bytes} {sh : Int32} {l hp : Bytes} {a : Action} (hc : sh ≤ 255)
    (hN : N → 0 ≤ sh ∨ l ≠ []) {t : Reg} {r : Out Int32} (e : addOption s.reg k sh l hp a = (t, r)) (hr : r ≠ .ub) : Tidy F N { s with reg := t } := by
  obtain ⟨t', r', e', _, h1, _⟩ := addOption_cases s.reg k sh l hp a
  rw [e] at e'; cases e'
  cases r with
  | ub => exact absurd rfl hr
  | throw x => exact h.sameReg (h1 x rfl).1
  | ok id =>
    obtain ⟨t0, path, o, sh', h4, h5, h7, h6, rfl⟩ := addOption_entered e
    obtain ⟨e1, e2, e3, e4, _⟩ := newOpt_fields h6
    have hsh : sh'.toInt ≤ 256 := by
      have := Int32.le_iff_toInt_le.1 hc
      have h255 : (255 : Int32).toInt = 255 := by decide
      rcases h5 with rfl | ⟨rfl, _⟩
      · omega
      · decide
    have hun := h4.unused hs.reg hsh
    have hf : ∀ k, St.entry { s with reg := enterOption t0 o } k = if id = k then some o else s.entry k := by
      intro k
      show find (insert ltInt t0.optionMap o.id o) k = _
      rw [h4.same.2.2.1, e1]
      exact find_insert _ _ hun k
    obtain ⟨g1, g2⟩ := newOpt_neat hF h6
    have hnamed : N → Named o := by
      intro n
      unfold Named
      rw [e3, e4]
      by_cases hl : l = []
      · refine .inl ?_
        have h0 : sh' ≠ 0 := fun h => h7 ⟨hl, h⟩
        rcases h5 with rfl | ⟨h, _⟩
        · rcases hN n with h | h
          · exact Int32.lt_of_le_of_ne h (Ne.symm h0)
          · exact absurd hl h
        · exact absurd h h0
      · exact .inr hl
    refine ⟨fun i x hx => ?_, fun i x hx n v hv => ?_, fun n i hi x hx => ?_⟩
    · rw [hf] at hx
      split at hx
      · cases hx; exact g1
      · exact h.forms i x hx
    · rw [hf] at hx
      split at hx
      · cases hx; rw [g2] at hv; cases hv
      · exact h.env i x hx n v hv
    · rw [hf] at hx
      split at hx
      · cases hx; exact hnamed n
      · rename_i hne
        have hi' : i ∈ s.reg.options ++ [id] := by
          have : (enterOption t0 o).options = s.reg.options ++ [id] := by
            show t0.options ++ [o.id] = _
            rw [h4.same.1, e1]
          rw [← this]; exact hi
        rcases List.mem_append.1 hi' with hi | hi
        · exact h.named n i hi x hx
        · simp at hi; exact absurd hi.symm hne

theorem Tidy.addArgument (hF : Start F) (hs : Sound w s) (h : Tidy F N s) {k hp : Bytes} {a : Action} {t : Reg} {r : Out Int32}
    (e : addArgument s.reg k hp a = (t, r)) (hr : r ≠ .ub) :
    Tidy F N { s with reg := t } ∧ ∀ id, r = .ok id → ∃ o, find t.optionMap id = some o ∧ ¬ Named o := by
  obtain ⟨t', r', e', _, h1, h2⟩ := addArgument_cases s.reg k hp a
  rw [e] at e'; cases e'
  cases r with
  | ub => exact absurd rfl hr
  | throw x => exact ⟨h.sameReg (h1 x rfl).1, nofun⟩
  | ok id =>
    obtain ⟨t0, path, o, _, h4, h6, rfl⟩ := h2 id rfl
    obtain ⟨e1, e2, e3, e4, _⟩ := newOpt_fields h6
    have hun := h4.unused hs.reg (by decide)
    have hf : ∀ k, St.entry { s with reg := enterArgument t0 o } k = if id = k then some { o with cfg := argDefaults o.cfg } else s.entry k := by
      intro k
      show find (insert ltInt t0.optionMap o.id _) k = _
      rw [h4.same.2.2.1, e1]
      exact find_insert _ _ hun k
    obtain ⟨g1, g2⟩ := newOpt_neat hF h6
    have harg : ∀ k v, optGet (argDefaults o.cfg) k = some v → (k = kMinArgs ∧ v = .int 1) ∨ (k = kMaxArgs ∧ v = .int 1) ∨ optGet o.cfg k = some v := by
      intro k v hv
      unfold optGet argDefaults at *
      cases hc : o.cfg.opt with
      | map m =>
        rw [hc] at hv
        replace hv : AMap.get (AMap.set (AMap.set m kMaxArgs (.int 1)) kMinArgs (.int 1)) k = some v := hv
        rw [get_set, get_set] at hv
        split at hv
        · rename_i e; cases hv; exact .inl ⟨e, rfl⟩
        · split at hv
          · rename_i e; cases hv; exact .inr (.inl ⟨e, rfl⟩)
          · exact .inr (.inr hv)
      | _ => rw [hc] at hv; exact .inr (.inr hv)
    refine ⟨⟨fun i x hx => ?_, fun i x hx n v hv => ?_, fun n i hi x hx => ?_⟩, fun id' he => ?_⟩
    · rw [hf] at hx
      split at hx
      · cases hx
        intro k v hv
        rcases harg k v hv with ⟨rfl, rfl⟩ | ⟨rfl, rfl⟩ | h
        · exact hF.minArgs
        · exact hF.maxArgs
        · exact g1 k v h
      · exact h.forms i x hx
    · rw [hf] at hx
      split at hx
      · cases hx
        rcases harg _ v hv with ⟨e, _⟩ | ⟨e, _⟩ | h
        · exact absurd e (by decide)
        · exact absurd e (by decide)
        · rw [g2] at h; cases h
      · exact h.env i x hx n v hv
    · rw [hf] at hx
      have hi : i ∈ s.reg.options := by
        have : (enterArgument t0 o).options = s.reg.options := h4.same.1
        rw [← this]; exact hi
      split at hx
      · rename_i e1; subst e1
        obtain ⟨y, hy⟩ := hs.reg.known id (List.mem_append.2 (.inl hi))
        rw [hun] at hy; cases hy
      · exact h.named n i hi x hx
    · cases he
      refine ⟨{ o with cfg := argDefaults o.cfg }, ?_, ?_⟩
      · have := hf id
        rw [if_pos rfl] at this; exact this
      · rintro (h | h)
        · exact absurd (show o.short > 0 from h) (by rw [e3]; decide)
        · exact h e4

/-! ## Calls -/

/-- Unless it is undefined, the step keeps the parser sound and tidy. -/
def Stays (w : World) (F : Bytes → Val → Prop) (N : Prop) (e : Effect) : Prop := e.2 ≠ .ub → Sound w e.1 ∧ Tidy F N e.1

theorem stays_next {r : Effect} {f : St → Effect} (h : Stays w F N r) (hf : ∀ s, Sound w s → Tidy F N s → Stays w F N (f s)) :
    Stays w F N (next r f) := by
  obtain ⟨s, r⟩ := r
  cases r with
  | ok a => exact hf s (h nofun).1 (h nofun).2
  | throw e => exact fun _ => h nofun
  | ub => exact fun hn => absurd rfl hn

theorem stays_withVal {α : Type} (hs : Sound w s) (h : Tidy F N s) {r : Out α} {f : α → Effect} (hf : ∀ a, r = .ok a → Stays w F N (f a)) :
    Stays w F N (withVal s r f) := by
  cases r with
  | ok a => exact hf a rfl
  | throw e => exact fun _ => ⟨hs, h⟩
  | ub => exact fun hn => absurd rfl hn

theorem stays_each {α : Type} {f : St → α → Effect} : ∀ (xs : List α) {s : St}, Sound w s → Tidy F N s →
    (∀ x ∈ xs, ∀ s, Sound w s → Tidy F N s → Stays w F N (f s x)) → Stays w F N (each f s xs)
  | [], _, hs, h, _ => fun _ => ⟨hs, h⟩
  | x :: xs, s, hs, h, hf => stays_next (hf x List.mem_cons_self s hs h) fun s hs h => stays_each xs hs h fun y hy => hf y (List.mem_cons_of_mem _ hy)

/-- The part of `keeps_initOpt` about the settings. -/
theorem tidy_initOpt (h : Tidy F N s) {id : Int32} {v : Val} (hv : v.WF) (hF : ∀ k x, getKey? v k = some x → F k x)
    (hE : ∀ o, s.entry id = some o → Named o → ∀ x, getKey? v kEnv = some x → IsText x) (hn : (initOpt s id v).2 ≠ .ub) : Tidy F N (initOpt s id v).1 := by
  revert hn
  have keep : ∀ {α : Type} {s : St} {r : Out α} {f : α → Effect}, Tidy F N s → (∀ a, (f a).2 ≠ .ub → Tidy F N (f a).1) →
      (withVal s r f).2 ≠ .ub → Tidy F N (withVal s r f).1 := by
    intro α s r f h hf hn
    cases r with
    | ok a => exact hf a hn
    | throw e => exact h
    | ub => exact absurd rfl hn
  unfold initOpt
  split
  · exact fun hn => absurd rfl hn
  · rename_i e he
    refine keep h fun t => ?_
    have h1 := h.setOther id (fun c => { c with ty := t }) fun _ => rfl
    refine keep h1 fun b => ?_
    have h2 := h1.setOther id (fun c => { c with required := b }) fun _ => rfl
    refine keep h2 fun a hu => ?_
    have h3 := h2.setOther id (fun c => { c with advanced := a }) fun _ => rfl
    have h4 : Tidy F N (setAdvanced (setCfg (setCfg s id fun c => { c with ty := t }) id fun c => { c with required := b }) id a) := h3.of_eq rfl
    have hent : ∀ o, (setAdvanced (setCfg (setCfg s id fun c => { c with ty := t }) id fun c => { c with required := b }) id a).entry id = some o →
        Named o → Named e := by
      intro o ho
      replace ho : (setCfg (setCfg (setCfg s id fun c => { c with ty := t }) id fun c => { c with required := b }) id fun c => { c with advanced := a }).entry id = some o := ho
      rw [entry_setCfg, entry_setCfg, entry_setCfg, he] at ho
      simp only [Option.map_some, if_true, Option.some.injEq] at ho
      subst ho
      exact fun h => h
    generalize setAdvanced _ id a = s4 at h4 hent hu ⊢
    clear hu
    unfold initMerge
    split
    · rename_i m
      rw [Val.WF] at hv
      have hg : ∀ {k x}, (k, x) ∈ m → getKey? (.map m) k = some x := fun hm => AMap.get_of_mem hv.1 hm
      refine h4.setCfg id _ fun o ho => ⟨fun k x hx => ?_, fun n x hx => ?_⟩
      · rcases optGet_mergeOpt o.cfg m k hx with hx | hx
        · exact hF k x (hg hx)
        · exact h4.forms id o ho k x hx
      · rcases optGet_mergeOpt o.cfg m kEnv hx with hx | hx
        · exact hE e he (hent o ho n) x (hg hx)
        · exact h4.env id o ho n x hx
    · exact h4
    · exact h4

theorem stays_mergeOption (hF : Start F) (hs : Sound w s) (h : Tidy F N s) {e : Bytes × Val} (he : e.2.WF) (hfit : OptionFit w F N e.2) :
    Stays w F N (mergeOption w s e) := by
  intro hn
  refine ⟨keeps_mergeOption hs he hn, ?_⟩
  refine (show Stays w F N (mergeOption w s e) from ?_) hn |>.2
  unfold mergeOption
  refine stays_withVal hs h fun short hsh => stays_withVal hs h fun long hlong => stays_withVal hs h fun help hhelp => stays_withVal hs h fun action _ => ?_
  have hc : short ≤ 255 := by
    unfold shortIn at hsh
    split at hsh
    · cases hsh; decide
    · rename_i v _
      cases hv : Build.asString w.fo.fltText v with
      | ok t => rw [hv] at hsh; cases hsh; exact firstChar_le t
      | throw x => rw [hv] at hsh; cases hsh
      | ub => rw [hv] at hsh; cases hsh
  cases ha : addOption s.reg e.1 short long help (actionOf action) with
  | mk t r =>
    have ht := fun hr => h.addOption hF hs hc (fun n => hfit.named n short long hsh hlong) ha hr
    cases r with
    | ok id =>
      intro hn
      exact ⟨keeps_initOpt (hs.addOption hc ha nofun).1 he (help_text hhelp) hn, tidy_initOpt (ht nofun) he hfit.forms (fun _ _ _ => hfit.env) hn⟩
    | throw x => exact fun _ => ⟨(hs.addOption hc ha nofun).1, ht nofun⟩
    | ub => exact fun hn => absurd rfl hn

theorem stays_mergeArgument (hF : Start F) (hs : Sound w s) (h : Tidy F N s) {v : Val} (hv : v.WF) (hfit : ∀ k x, getKey? v k = some x → F k x) :
    Stays w F N (mergeArgument w s v) := by
  unfold mergeArgument
  split
  · exact fun _ => ⟨hs, h⟩
  · refine stays_withVal hs h fun kp _ => stays_withVal hs h fun help hhelp => stays_withVal hs h fun action _ => ?_
    cases ha : addArgument s.reg kp help (actionOf action) with
    | mk t r =>
      have ht := fun hr => h.addArgument hF hs ha hr
      cases r with
      | ok id =>
        intro hn
        obtain ⟨o, ho, hno⟩ := (ht nofun).2 id rfl
        refine ⟨keeps_initOpt (hs.addArgument ha nofun).1 hv (help_text hhelp) hn, tidy_initOpt (ht nofun).1 hv hfit (fun o' ho' n => ?_) hn⟩
        have e : o' = o := by
          have : find t.optionMap id = some o' := ho'
          rw [ho] at this; cases this; rfl
        exact absurd (e ▸ n) hno
      | throw x => exact fun _ => ⟨(hs.addArgument ha nofun).1, (ht nofun).1⟩
      | ub => exact fun hn => absurd rfl hn

theorem Tidy.addMember (h : Tidy F N s) (n : Bytes) (id : Int32) : Tidy F N (addMember s n id) := by
  unfold Args.addMember
  exact Tidy.setOther (s := setGroup s n fun g => { g with members := addOnce g.members id }) (Tidy.of_eq h rfl) id (fun c => { c with groups := addOnce c.groups n }) fun _ => rfl

theorem stays_mergeGroup (hs : Sound w s) (h : Tidy F N s) (e : Bytes × Val) : Stays w F N (mergeGroup w s e) := by
  intro hn
  refine ⟨keeps_mergeGroup hs e hn, ?_⟩
  revert hn
  have keep : ∀ {α : Type} {s : St} {r : Out α} {f : α → Effect}, Tidy F N s → (∀ a, (f a).2 ≠ .ub → Tidy F N (f a).1) →
      (withVal s r f).2 ≠ .ub → Tidy F N (withVal s r f).1 := by
    intro α s r f h hf hn
    cases r with
    | ok a => exact hf a hn
    | throw e => exact h
    | ub => exact absurd rfl hn
  have loop : ∀ (vs : List Val) {s : St}, Tidy F N s → (each (mergeMember w e.1) s vs).2 ≠ .ub → Tidy F N (each (mergeMember w e.1) s vs).1 := by
    intro vs
    induction vs with
    | nil => exact fun h _ => h
    | cons v vs ih =>
      intro s h
      unfold each
      have h1 : (mergeMember w e.1 s v).2 ≠ .ub → Tidy F N (mergeMember w e.1 s v).1 := by
        unfold mergeMember
        exact keep h fun t => keep h fun id _ => h.addMember e.1 id
      generalize mergeMember w e.1 s v = r at h1 ⊢
      obtain ⟨s', r⟩ := r
      cases r with
      | ok a => exact ih (h1 nofun)
      | throw x => exact fun _ => h1 nofun
      | ub => exact fun hn => absurd rfl hn
  unfold mergeGroup initGroup
  have h0 : Tidy F N (getGroup s e.1) := h.of_eq rfl
  split
  · exact fun hn => absurd rfl hn
  · refine keep h0 fun a1 => ?_
    have h1 : Tidy F N (setGroup (getGroup s e.1) e.1 fun g => { g with title := a1 }) := h.of_eq rfl
    refine keep h1 fun a2 => ?_
    have h2 := h1.of_eq (s' := setGroup (setGroup (getGroup s e.1) e.1 fun g => { g with title := a1 }) e.1 fun g => { g with description := a2 }) rfl
    refine keep h2 fun a3 => ?_
    have h3 := h2.of_eq (s' := setGroup (setGroup (setGroup (getGroup s e.1) e.1 fun g => { g with title := a1 }) e.1 fun g => { g with description := a2 }) e.1
      fun g => { g with required := a3 }) rfl
    refine keep h3 fun a4 => ?_
    refine keep (h3.of_eq rfl) fun a5 => ?_
    exact loop _ (h3.of_eq rfl)

theorem stays_mergeDescription (hF : Start F) (hs : Sound w s) (h : Tidy F N s) {d : Val} (hd : d.WF) (hfit : PCall.fit w F N (.merge d)) :
    Stays w F N (mergeDescription w s d) := by
  unfold mergeDescription
  refine stays_next (stays_each _ hs h fun e he s hs h => stays_mergeOption hF hs h (wf_mapIn hd _ e he) (hfit.1 e he)) fun s hs h => ?_
  refine stays_next (stays_each _ hs h fun e he s hs h => stays_mergeGroup hs h e) fun s hs h => ?_
  exact stays_each _ hs h fun e he s hs h => stays_mergeArgument hF hs h (wf_listIn hd _ e he) (hfit.2 e he)

theorem tidy_step (hF : Start F) (hs : Sound w s) (h : Tidy F N s) (c : PCall) (hc : c.proper) (hfit : c.fit w F N) (hn : (c.step w s).2 ≠ .ub) :
    Tidy F N (c.step w s).1 := by
  revert hn
  cases c with
  | conflictResolution on => exact fun _ => h.sameReg (t := { s.reg with resolve := on }) ⟨rfl, rfl, rfl, rfl, rfl, rfl⟩
  | addHelp => exact fun _ => h.of_eq rfl
  | addOption k sh l hp a =>
    show (onReg s (addOption s.reg k sh l hp a) fun s _ => (s, .ok ())).2 ≠ .ub → Tidy F N (onReg s (addOption s.reg k sh l hp a) fun s _ => (s, .ok ())).1
    cases ha : addOption s.reg k sh l hp a with
    | mk t r =>
      cases r with
      | ok id => exact fun _ => h.addOption hF hs hc hfit ha nofun
      | throw x => exact fun _ => h.addOption hF hs hc hfit ha nofun
      | ub => exact fun hn => absurd rfl hn
  | addArgument k hp =>
    show (onReg s (addArgument s.reg k hp .store) fun s _ => (s, .ok ())).2 ≠ .ub → Tidy F N (onReg s (addArgument s.reg k hp .store) fun s _ => (s, .ok ())).1
    cases ha : addArgument s.reg k hp .store with
    | mk t r =>
      cases r with
      | ok id => exact fun _ => (h.addArgument hF hs ha nofun).1
      | throw x => exact fun _ => (h.addArgument hF hs ha nofun).1
      | ub => exact fun hn => absurd rfl hn
  | set id f =>
    show (setEntry w.p s id f).2 ≠ .ub → Tidy F N (setEntry w.p s id f).1
    unfold setEntry
    split
    · exact fun _ => h
    · rename_i o ho
      intro _
      have : Tidy F N (setCfg s id fun _ => (f.run w.p o.cfg).1) :=
        h.setCfg id _ fun o' ho' => by
          rw [ho] at ho'; cases ho'
          exact ⟨hfit o.cfg (h.forms id o ho), fun n => Setter.env_text w.p (h.env id o ho n) f⟩
      dsimp only
      split
      · exact this.of_eq rfl
      · exact this
  | joinGroup id n =>
    show (match s.entry id with | none => (s, Out.ok ()) | some _ => (addMember (getGroup s n) n id, .ok ())).2 ≠ .ub →
      Tidy F N (match s.entry id with | none => (s, Out.ok ()) | some _ => (addMember (getGroup s n) n id, .ok ())).1
    cases ho : s.entry id with
    | none => exact fun _ => h
    | some o => exact fun _ => Tidy.addMember (s := getGroup s n) (h.of_eq rfl) n id
  | group n => exact fun _ => h.of_eq rfl
  | groupTitle n t => exact fun _ => h.of_eq rfl
  | groupDescription n t => exact fun _ => h.of_eq rfl
  | groupExclusive n b => exact fun _ => h.of_eq rfl
  | groupRequired n b => exact fun _ => h.of_eq rfl
  | groupAdvanced n b => exact fun _ => h.of_eq rfl
  | groupAdd n k =>
    show (match find s.groups n with | none => (s, Out.ok ()) | some _ => withVal s (entryNamed s k) fun id => (addMember s n id, .ok ())).2 ≠ .ub →
      Tidy F N (match find s.groups n with | none => (s, Out.ok ()) | some _ => withVal s (entryNamed s k) fun id => (addMember s n id, .ok ())).1
    split
    · exact fun _ => h
    · cases entryNamed s k with
      | ok id => exact fun _ => h.addMember n id
      | throw x => exact fun _ => h
      | ub => exact fun hn => absurd rfl hn
  | setTitle t => exact fun _ => h
  | setDescription t => exact fun _ => h
  | setEpilog t => exact fun _ => h
  | merge d => exact fun hn => (stays_mergeDescription hF hs h hc hfit hn).2

theorem build_tidy (hF : Start F) : ∀ (cs : List PCall) {P Q : Parser}, Sound w P.st → Tidy F N P.st → (∀ c ∈ cs, PCall.proper c ∧ c.fit w F N) →
    build w P cs = some Q → Sound w Q.st ∧ Tidy F N Q.st
  | [], P, Q, hs, h, _, hb => by cases hb; exact ⟨hs, h⟩
  | c :: cs, P, Q, hs, h, hc, hb => by
    have h0 := hc c List.mem_cons_self
    have hk := keeps_step hs c h0.1
    have ht := tidy_step hF hs h c h0.1 h0.2
    unfold build at hb
    have hst : (c.run w P).2 ≠ .ub → Sound w (c.run w P).1.st ∧ Tidy F N (c.run w P).1.st := by
      intro hn
      have h1 := hk hn
      have h2 := ht hn
      cases c <;> first | exact ⟨h1, h2⟩ | exact ⟨hs, h⟩
    split at hb
    · cases hb
    · rename_i hn
      have := hst (fun e => hn e)
      exact build_tidy hF cs this.1 this.2 (fun x hx => hc x (List.mem_cons_of_mem _ hx)) hb

theorem tidy_init (b : Bool) : Tidy F N ⟨.init, [], b, false, false, false, false⟩ := ⟨nofun, nofun, nofun⟩

end Verif.Args
