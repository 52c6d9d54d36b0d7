import Verif.Args.DescWhole
/-!
# What holds of every parser a program can build
-/

namespace Verif.Args
open Verif JsonDrv Schema

/-- The table of settings of an entry: it has a title and a help text. -/
def FineOpt (w : World) (v : Val) : Prop :=
  ∃ m, v = .map m ∧ AMap.Sorted m ∧ (AMap.get m kTitle).isSome ∧ ∃ v t, AMap.get m kDescription = some v ∧ Build.asString w.fo.fltText v = .ok t

/-- No setting is lost. -/
def Sub (c c' : Config) : Prop := ∀ k, (optGet c k).isSome → (optGet c' k).isSome

/-- What holds of every parser. -/
structure Sound (w : World) (s : St) : Prop where
  reg : Inv s.reg
  told : ∀ i o, s.entry i = some o → Told w o
  args : ∀ i ∈ s.reg.arguments, ∀ o, s.entry i = some o →
    (optGet o.cfg kMinArgs).isSome ∧ (optGet o.cfg kMaxArgs).isSome ∧ ¬ o.short > 0 ∧ o.long = []
  names : AMap.Sorted s.groups
  members : ∀ n g, find s.groups n = some g → g.members.Nodup ∧ ∀ i ∈ g.members, ∃ o, s.entry i = some o

theorem sound_init (w : World) (b : Bool) : Sound w ⟨.init, [], b, false, false, false, false⟩ :=
  ⟨inv_init, nofun, nofun, trivial, nofun⟩

variable {w : World} {s : St}

/-- Changes of other fields do not matter. -/
theorem Sound.of_eq {s' : St} (h : Sound w s) (h1 : s'.reg = s.reg) (h2 : s'.groups = s.groups) : Sound w s' := by
  have he : ∀ i, s'.entry i = s.entry i := fun i => by unfold St.entry; rw [h1]
  refine ⟨by rw [h1]; exact h.reg, fun i o ho => h.told i o (by rw [← he]; exact ho), fun i hi o ho => h.args i (by rw [← h1]; exact hi) o (by rw [← he]; exact ho),
    by rw [h2]; exact h.names, fun n g hg => ?_⟩
  obtain ⟨a, b⟩ := h.members n g (by rw [← h2]; exact hg)
  exact ⟨a, fun i hi => by rw [he]; exact b i hi⟩

theorem Sound.setCfg (h : Sound w s) (id : Int32) (f : Config → Config)
    (hf : ∀ o, s.entry id = some o → FineOpt w (f o.cfg).opt ∧ Sub o.cfg (f o.cfg)) : Sound w (setCfg s id f) := by
  have he := entry_setCfg s id f
  have hk : ∀ i o', (Args.setCfg s id f).entry i = some o' → ∃ o, s.entry i = some o ∧ o'.path = o.path ∧ o'.short = o.short ∧ o'.long = o.long ∧
      Sub o.cfg o'.cfg ∧ (FineOpt w o.cfg.opt → FineOpt w o'.cfg.opt) := by
    intro i o' h'
    rw [he] at h'
    cases ho : s.entry i with
    | none => rw [ho] at h'; cases h'
    | some o =>
      rw [ho] at h'
      simp only [Option.map_some, Option.some.injEq] at h'
      subst h'
      by_cases e : i = id
      · subst e
        simp only [if_pos rfl]
        exact ⟨o, rfl, rfl, rfl, rfl, (hf o ho).2, fun _ => (hf o ho).1⟩
      · simp only [if_neg e]
        exact ⟨o, rfl, rfl, rfl, rfl, fun _ h => h, fun h => h⟩
  refine ⟨inv_setCfg h.reg id f, fun i o' ho' => ?_, fun i hi o' ho' => ?_, h.names, fun n g hg => ?_⟩
  · obtain ⟨o, ho, hp, _, _, _, h3⟩ := hk i o' ho'
    obtain ⟨h1, h2⟩ := h.told i o ho
    exact ⟨by rw [hp]; exact h1, h3 h2⟩
  · obtain ⟨o, ho, _, h1, h2, h3, _⟩ := hk i o' ho'
    obtain ⟨a, b, c, d⟩ := h.args i hi o ho
    exact ⟨h3 _ a, h3 _ b, by rw [h1]; exact c, by rw [h2]; exact d⟩
  · obtain ⟨a, b⟩ := h.members n g hg
    refine ⟨a, fun i hi => ?_⟩
    obtain ⟨o, ho⟩ := b i hi
    rw [he, ho]; exact ⟨_, rfl⟩

/-! ## Settings -/

theorem FineOpt.set {c : Config} (h : FineOpt w c.opt) (k : Bytes) (v : Val) (hk : k = kDescription → ∃ t, Build.asString w.fo.fltText v = .ok t) :
    FineOpt w (setOpt c k v).opt ∧ Sub c (setOpt c k v) := by
  obtain ⟨m, hm, h1, h2, x, t, h3, h4⟩ := h
  have ho : (setOpt c k v).opt = .map (AMap.set m k v) := by unfold setOpt; rw [hm]
  have hsub : ∀ k', (AMap.get m k').isSome → (AMap.get (AMap.set m k v) k').isSome := by
    intro k' h'
    rw [get_set]
    split
    · rfl
    · exact h'
  refine ⟨⟨_, ho, AMap.sorted_set h1 _ _, hsub _ h2, ?_⟩, fun k' h' => ?_⟩
  · rw [get_set]
    by_cases e : kDescription = k
    · rw [if_pos e]
      obtain ⟨t', ht'⟩ := hk e.symm
      exact ⟨v, t', rfl, ht'⟩
    · rw [if_neg e]; exact ⟨x, t, h3, h4⟩
  · unfold optGet at h' ⊢
    rw [hm] at h'
    rw [ho]
    exact hsub k' h'

theorem FineOpt.merge {c : Config} (h : FineOpt w c.opt) {o : List (Bytes × Val)} (hs : AMap.Sorted o)
    (hd : ∀ v, AMap.get o kDescription = some v → ∃ t, Build.asString w.fo.fltText v = .ok t) :
    FineOpt w (mergeOpt c o).opt ∧ Sub c (mergeOpt c o) := by
  obtain ⟨m, hm, h1, h2, x, t, h3, h4⟩ := h
  have ho : (mergeOpt c o).opt = .map (mergeKeys m o) := by unfold mergeOpt; rw [hm]
  have hsub : ∀ k', (AMap.get m k').isSome → (AMap.get (mergeKeys m o) k').isSome := by
    intro k' h'
    rw [get_mergeKeys hs]
    cases AMap.get o k' with
    | none => exact h'
    | some v => rfl
  refine ⟨⟨_, ho, sorted_mergeKeys h1 _, hsub _ h2, ?_⟩, fun k' h' => ?_⟩
  · rw [get_mergeKeys hs]
    cases e : AMap.get o kDescription with
    | none => exact ⟨x, t, h3, h4⟩
    | some v =>
      obtain ⟨t', ht'⟩ := hd v e
      exact ⟨v, t', rfl, ht'⟩
  · unfold optGet at h' ⊢
    rw [hm] at h'
    rw [ho]
    exact hsub k' h'

/-- A change of the other fields. -/
theorem fine_same {c c' : Config} (h : FineOpt w c.opt) (e : c'.opt = c.opt) : FineOpt w c'.opt ∧ Sub c c' :=
  ⟨by rw [e]; exact h, fun k hk => by unfold optGet at hk ⊢; rw [e]; exact hk⟩

theorem Setter.fine (p : Nat) {c : Config} (h : FineOpt w c.opt) (f : Setter) : FineOpt w (f.run p c).1.opt ∧ Sub c (f.run p c).1 := by
  have hset : ∀ (c' : Config) k v, c'.opt = c.opt → k ≠ kDescription → FineOpt w (setOpt c' k v).opt ∧ Sub c (setOpt c' k v) := by
    intro c' k v e hk
    have := FineOpt.set (c := c') (by rw [e]; exact h) k v (fun e => absurd e hk)
    exact ⟨this.1, fun k' hk' => this.2 k' (by unfold optGet at hk' ⊢; rw [e]; exact hk')⟩
  cases f with
  | title t => exact hset c _ _ rfl (by decide)
  | action a => simp only [Setter.run]; split <;> exact fine_same h rfl
  | actionName a => simp only [Setter.run]; split <;> exact fine_same h rfl
  | type t => simp only [Setter.run]; split <;> exact fine_same h rfl
  | typeName t => simp only [Setter.run]; split <;> exact fine_same h rfl
  | const v => exact hset c _ _ rfl (by decide)
  | default v => exact hset c _ _ rfl (by decide)
  | env t => exact hset c _ _ rfl (by decide)
  | minimum v =>
    simp only [Setter.run, setLimit]
    split
    · exact hset (defaultType c .flt) _ _ rfl (by decide)
    · exact fine_same h rfl
  | maximum v =>
    simp only [Setter.run, setLimit]
    split
    · exact hset (defaultType c .flt) _ _ rfl (by decide)
    · exact fine_same h rfl
  | addChoice v =>
    simp only [Setter.run, withChoice]
    split
    · exact hset c _ _ rfl (by decide)
    · dsimp only
      split
      · exact fine_same h rfl
      · exact hset c _ _ rfl (by decide)
    · exact fine_same h rfl
    · exact fine_same h rfl
  | setChoices vs => exact hset c _ _ rfl (by decide)
  | required on => exact fine_same h rfl
  | help t => exact FineOpt.set h _ _ fun _ => ⟨t, rfl⟩
  | pattern t => exact hset (defaultType c .str) _ _ rfl (by decide)
  | maxLength n => exact hset (defaultType c .str) _ _ rfl (by decide)
  | minLength n => exact hset (defaultType c .str) _ _ rfl (by decide)
  | minArgs n => exact hset c _ _ rfl (by decide)
  | maxArgs n => exact hset c _ _ rfl (by decide)
  | numArgs n =>
    have h1 : FineOpt w (setMinArgs c n).opt ∧ Sub c (setMinArgs c n) := hset c kMinArgs _ rfl (by decide)
    have h2 := FineOpt.set h1.1 kMaxArgs (.uint n.toUInt64) (fun e => absurd e (by decide))
    exact ⟨h2.1, fun k hk => h2.2 k (h1.2 k hk)⟩
  | advanced b => exact fine_same h rfl

/-! ## Registering -/

theorem newOpt_told {id path short long help action o} (h : newOpt id path short long help action = .ok o) : Told w o := by
  obtain ⟨t, hc⟩ := newOpt_start h
  have hs : AMap.Sorted [(kDescription, Val.str help), (kTitle, Val.str t)] :=
    ⟨fun p hp => by simp at hp; subst hp; exact (by decide : keyLt kDescription kTitle = true), nofun, trivial⟩
  refine ⟨?_, _, by rw [hc], hs, rfl, .str help, help, rfl, rfl⟩
  rw [(newOpt_fields h).2.1]
  rintro rfl
  cases h

/-- A registration, whether it succeeds or not. -/
theorem Sound.registered {t : Reg} (h : Sound w s) (ht : Inv t) (hk : ∀ i o, s.entry i = some o → find t.optionMap i = some o)
    (hn : ∀ i o, find t.optionMap i = some o → s.entry i = some o ∨ (s.entry i = none ∧ Told w o ∧
      (i ∈ t.arguments → (optGet o.cfg kMinArgs).isSome ∧ (optGet o.cfg kMaxArgs).isSome ∧ ¬ o.short > 0 ∧ o.long = [])))
    (ha : ∀ i ∈ t.arguments, i ∈ s.reg.arguments ∨ s.entry i = none) : Sound w { s with reg := t } := by
  refine ⟨ht, fun i o ho => ?_, fun i hi o ho => ?_, h.names, fun n g hg => ?_⟩
  · rcases hn i o ho with h1 | ⟨_, h1, _⟩
    · exact h.told i o h1
    · exact h1
  · rcases hn i o ho with h1 | ⟨_, _, h1⟩
    · rcases ha i hi with h2 | h2
      · exact h.args i h2 o h1
      · rw [h2] at h1; cases h1
    · exact h1 hi
  · obtain ⟨a, b⟩ := h.members n g hg
    refine ⟨a, fun i hi => ?_⟩
    obtain ⟨o, ho⟩ := b i hi
    exact ⟨o, hk i o ho⟩

theorem Sound.same {t : Reg} (h : Sound w s) (hs : SameEntries s.reg t) (hc : s.reg.count.toInt ≤ t.count.toInt) : Sound w { s with reg := t } := by
  refine h.registered (hs.inv h.reg hc) (fun i o ho => ?_) (fun i o ho => .inl ?_) (fun i hi => .inl ?_)
  · rw [hs.2.2.1]; exact ho
  · rw [hs.2.2.1] at ho; exact ho
  · rw [hs.2.1] at hi; exact hi

theorem Sound.addOption (h : Sound w s) {k : Bytes} {sh : Int32} {l hp : Bytes} {a : Action} (hc : sh ≤ 255) {t : Reg} {r : Out Int32}
    (e : addOption s.reg k sh l hp a = (t, r)) (hr : r ≠ .ub) : Sound w { s with reg := t } ∧ ∀ id, r = .ok id → ∃ o, find t.optionMap id = some o := by
  have hinv := addOption_inv h.reg hc e hr
  obtain ⟨t', r', e', _, h1, h2⟩ := addOption_cases s.reg k sh l hp a
  rw [e] at e'; cases e'
  cases r with
  | ub => exact absurd rfl hr
  | throw x => exact ⟨h.same (h1 x rfl).1 (h1 x rfl).2.1, nofun⟩
  | ok id =>
    obtain ⟨t0, path, o, sh', _, h4, h5, h6, rfl⟩ := h2 id rfl
    obtain ⟨e1, e2, e3, e4, _⟩ := newOpt_fields h6
    have hsh : sh'.toInt ≤ 256 := by
      have := Int32.le_iff_toInt_le.1 hc
      have h255 : (255 : Int32).toInt = 255 := by decide
      rcases h5 with rfl | ⟨rfl, _⟩
      · omega
      · decide
    have hun := h4.unused h.reg hsh
    have hf : ∀ k, find (enterOption t0 o).optionMap k = if id = k then some o else find s.reg.optionMap k := by
      intro k
      show find (insert ltInt t0.optionMap o.id o) k = _
      rw [h4.same.2.2.1, e1]
      exact find_insert _ _ hun k
    refine ⟨h.registered hinv (fun i x hx => ?_) (fun i x hx => ?_) (fun i hi => .inl ?_), fun id' he => ?_⟩
    · rw [hf, if_neg]; exact hx
      rintro rfl
      rw [show s.entry id = none from hun] at hx; cases hx
    · rw [hf] at hx
      split at hx
      · rename_i e; subst e; cases hx
        refine .inr ⟨hun, newOpt_told h6, fun hi => ?_⟩
        have : id ∈ s.reg.arguments := by
          have : (enterOption t0 o).arguments = s.reg.arguments := h4.same.2.1
          rw [this] at hi; exact hi
        obtain ⟨x, hx⟩ := h.reg.known id (List.mem_append.2 (.inr this))
        rw [hun] at hx; cases hx
      · exact .inl hx
    · have : (enterOption t0 o).arguments = s.reg.arguments := h4.same.2.1
      rw [this] at hi; exact hi
    · cases he; exact ⟨o, by rw [hf, if_pos rfl]⟩

theorem argDefaults_sub (c : Config) : Sub c (argDefaults c) := by
  intro k hk
  unfold optGet argDefaults at *
  cases hc : c.opt with
  | map m =>
    rw [hc] at hk
    show (AMap.get (AMap.set (AMap.set m kMaxArgs (.int 1)) kMinArgs (.int 1)) k).isSome
    rw [get_set, get_set]
    split
    · rfl
    · split
      · rfl
      · exact hk
  | _ => rw [hc] at hk; exact hk

theorem newArg_fine {id path short long help action o} (h : newOpt id path short long help action = .ok o) :
    Told w { o with cfg := argDefaults o.cfg } ∧ (optGet (argDefaults o.cfg) kMinArgs).isSome ∧ (optGet (argDefaults o.cfg) kMaxArgs).isSome := by
  obtain ⟨h1, m, hm, h2, h3, v, t, h4, h5⟩ := newOpt_told (w := w) h
  have ho : (argDefaults o.cfg).opt = .map (AMap.set (AMap.set m kMaxArgs (.int 1)) kMinArgs (.int 1)) := by unfold argDefaults; rw [hm]
  refine ⟨⟨h1, _, ho, AMap.sorted_set (AMap.sorted_set h2 _ _) _ _, ?_, v, t, ?_, h5⟩, ?_, ?_⟩
  · rw [get_set, get_set, if_neg (by decide), if_neg (by decide)]; exact h3
  · rw [get_set, get_set, if_neg (by decide), if_neg (by decide)]; exact h4
  · unfold optGet; rw [ho]; show (AMap.get _ _).isSome; rw [get_set, if_pos rfl]; rfl
  · unfold optGet; rw [ho]; show (AMap.get _ _).isSome; rw [get_set, if_neg (by decide), get_set, if_pos rfl]; rfl

theorem Sound.addArgument (h : Sound w s) {k hp : Bytes} {a : Action} {t : Reg} {r : Out Int32}
    (e : addArgument s.reg k hp a = (t, r)) (hr : r ≠ .ub) : Sound w { s with reg := t } ∧ ∀ id, r = .ok id → ∃ o, find t.optionMap id = some o := by
  have hinv := addArgument_inv h.reg e hr
  obtain ⟨t', r', e', _, h1, h2⟩ := addArgument_cases s.reg k hp a
  rw [e] at e'; cases e'
  cases r with
  | ub => exact absurd rfl hr
  | throw x => exact ⟨h.same (h1 x rfl).1 (h1 x rfl).2.1, nofun⟩
  | ok id =>
    obtain ⟨t0, path, o, _, h4, h6, rfl⟩ := h2 id rfl
    obtain ⟨e1, e2, e3, e4, _⟩ := newOpt_fields h6
    have hun := h4.unused h.reg (by decide)
    have hf : ∀ k, find (enterArgument t0 o).optionMap k = if id = k then some { o with cfg := argDefaults o.cfg } else find s.reg.optionMap k := by
      intro k
      show find (insert ltInt t0.optionMap o.id _) k = _
      rw [h4.same.2.2.1, e1]
      exact find_insert _ _ hun k
    obtain ⟨g1, g2, g3⟩ := newArg_fine (w := w) h6
    refine ⟨h.registered hinv (fun i x hx => ?_) (fun i x hx => ?_) (fun i hi => ?_), fun id' he => ?_⟩
    · rw [hf, if_neg]; exact hx
      rintro rfl
      rw [show s.entry id = none from hun] at hx; cases hx
    · rw [hf] at hx
      split at hx
      · rename_i e; subst e; cases hx
        exact .inr ⟨hun, g1, fun _ => ⟨g2, g3, by show ¬ o.short > 0; rw [e3]; decide, e4⟩⟩
      · exact .inl hx
    · have : (enterArgument t0 o).arguments = s.reg.arguments ++ [id] := by
        show t0.arguments ++ [o.id] = _
        rw [h4.same.2.1, e1]
      rw [this] at hi
      rcases List.mem_append.1 hi with hi | hi
      · exact .inl hi
      · simp at hi; subst hi; exact .inr hun
    · cases he; exact ⟨_, by rw [hf, if_pos rfl]⟩

/-! ## Groups -/

theorem Sound.group (h : Sound w s) {s' : St} (h1 : s'.reg = s.reg) (h2 : AMap.Sorted s'.groups)
    (h3 : ∀ n g', find s'.groups n = some g' → g'.members = [] ∨ ∃ g, find s.groups n = some g ∧ g'.members = g.members) : Sound w s' := by
  have he : ∀ i, s'.entry i = s.entry i := fun i => by unfold St.entry; rw [h1]
  refine ⟨by rw [h1]; exact h.reg, fun i o ho => h.told i o (by rw [← he]; exact ho), fun i hi o ho => h.args i (by rw [← h1]; exact hi) o (by rw [← he]; exact ho),
    h2, fun n g' hg => ?_⟩
  rcases h3 n g' hg with e | ⟨g, hg', e⟩
  · rw [e]; exact ⟨.nil, nofun⟩
  · rw [e]
    obtain ⟨a, b⟩ := h.members n g hg'
    exact ⟨a, fun i hi => by rw [he]; exact b i hi⟩

theorem Sound.getGroup (h : Sound w s) (n : Bytes) : Sound w (getGroup s n) := by
  refine h.group rfl (insert_sorted h.names _ _) fun k g' hg => ?_
  rw [find_getGroup h.names] at hg
  split at hg
  · rename_i e
    subst e
    cases hf : find s.groups k with
    | none => rw [hf] at hg; cases hg; exact .inl rfl
    | some g => rw [hf] at hg; cases hg; exact .inr ⟨_, rfl, rfl⟩
  · exact .inr ⟨g', hg, rfl⟩

theorem Sound.setGroup (h : Sound w s) (n : Bytes) (f : Group → Group) (hf : ∀ g, (f g).members = g.members) : Sound w (setGroup s n f) := by
  refine h.group rfl (setGroup_sorted h.names _ _) fun k g' hg => ?_
  rw [find_setGroup] at hg
  cases hk : find s.groups k with
  | none => rw [hk] at hg; cases hg
  | some g =>
    rw [hk] at hg
    simp only [Option.map_some, Option.some.injEq] at hg
    refine .inr ⟨g, rfl, ?_⟩
    rw [← hg]
    split
    · exact hf g
    · rfl

theorem addOnce_nodup {α : Type} [DecidableEq α] {xs : List α} (h : xs.Nodup) (x : α) : (addOnce xs x).Nodup := by
  unfold addOnce
  split
  · exact h
  · rename_i hx
    refine List.nodup_append.2 ⟨h, by simp, fun a ha b hb => ?_⟩
    simp at hb; subst hb
    rintro rfl; exact hx ha

theorem mem_addOnce {α : Type} [DecidableEq α] {xs : List α} {x y : α} (h : y ∈ addOnce xs x) : y ∈ xs ∨ y = x := by
  unfold addOnce at h
  split at h
  · exact .inl h
  · simpa using h

theorem Sound.addMember (h : Sound w s) (n : Bytes) {id : Int32} {o : Opt} (ho : s.entry id = some o) : Sound w (addMember s n id) := by
  unfold Args.addMember
  refine Sound.setCfg ?_ _ _ (fun o ho' => fine_same (c := o.cfg) (h.told id o ho').2 rfl)
  refine ⟨h.reg, h.told, h.args, setGroup_sorted h.names _ _, fun k g' hg => ?_⟩
  rw [find_setGroup] at hg
  cases hk : find s.groups k with
  | none => rw [hk] at hg; cases hg
  | some g =>
    rw [hk] at hg
    simp only [Option.map_some, Option.some.injEq] at hg
    obtain ⟨a, b⟩ := h.members k g hk
    subst hg
    split
    · refine ⟨addOnce_nodup a id, fun i hi => ?_⟩
      rcases mem_addOnce hi with hi | rfl
      · exact b i hi
      · exact ⟨o, ho⟩
    · exact ⟨a, b⟩

/-! ## Calls -/

/-- Unless it is undefined, the step keeps the parser sound. -/
def Holds (w : World) (e : Effect) : Prop := e.2 ≠ .ub → Sound w e.1

theorem keeps_ok (h : Sound w s) {r : Out Unit} : Holds w (s, r) := fun _ => h

theorem keeps_next {r : Effect} {f : St → Effect} (h : Holds w r) (hf : ∀ s, Sound w s → Holds w (f s)) : Holds w (next r f) := by
  obtain ⟨s, r⟩ := r
  cases r with
  | ok a => exact hf s (h nofun)
  | throw e => exact fun _ => h nofun
  | ub => exact fun hn => absurd rfl hn

theorem keeps_withVal {α : Type} (h : Sound w s) {r : Out α} {f : α → Effect} (hf : ∀ a, r = .ok a → Holds w (f a)) : Holds w (withVal s r f) := by
  cases r with
  | ok a => exact hf a rfl
  | throw e => exact fun _ => h
  | ub => exact fun hn => absurd rfl hn

theorem keeps_each {α : Type} {f : St → α → Effect} : ∀ (xs : List α) {s : St}, Sound w s → (∀ x ∈ xs, ∀ s, Sound w s → Holds w (f s x)) → Holds w (each f s xs)
  | [], _, h, _ => keeps_ok h
  | x :: xs, s, h, hf => keeps_next (hf x List.mem_cons_self s h) fun s hs => keeps_each xs hs fun y hy => hf y (List.mem_cons_of_mem _ hy)

theorem keeps_initOpt (h : Sound w s) {id : Int32} {o : Val} (ho : o.WF)
    (hd : ∀ v, getKey? o kDescription = some v → ∃ t, Build.asString w.fo.fltText v = .ok t) : Holds w (initOpt s id o) := by
  unfold initOpt
  split
  · exact fun hn => absurd rfl hn
  · rename_i e he
    refine keeps_withVal h fun t ht => ?_
    have h1 := h.setCfg id (fun c => { c with ty := t }) fun o ho => fine_same (c := o.cfg) (h.told id o ho).2 rfl
    refine keeps_withVal h1 fun b hb => ?_
    have h2 := h1.setCfg id (fun c => { c with required := b }) fun o ho => fine_same (c := o.cfg) (h1.told id o ho).2 rfl
    refine keeps_withVal h2 fun a ha => ?_
    have h3 := h2.setCfg id (fun c => { c with advanced := a }) fun o ho => fine_same (c := o.cfg) (h2.told id o ho).2 rfl
    have h4 : Sound w (setAdvanced (setCfg (setCfg s id fun c => { c with ty := t }) id fun c => { c with required := b }) id a) := h3.of_eq rfl rfl
    generalize setAdvanced _ id a = s4 at h4 ⊢
    unfold initMerge
    split
    · rename_i m
      refine keeps_ok (h4.setCfg id _ fun x hx => FineOpt.merge (h4.told id x hx).2 ?_ hd)
      rw [Val.WF] at ho
      exact ho.1
    · exact keeps_ok h4
    · exact keeps_ok h4

theorem firstChar_le (t : Bytes) : firstChar t ≤ 255 := by
  unfold firstChar
  generalize (t.headD 0).toInt8 = c
  apply Int32.le_iff_toInt_le.2
  have h1 := c.toInt_lt
  have e : (255 : Int32).toInt = 255 := by decide
  rw [e]
  simp
  omega

theorem help_text {o : Val} {help : Bytes} (h : textOr w o kDescription [] = .ok help) :
    ∀ v, getKey? o kDescription = some v → ∃ t, Build.asString w.fo.fltText v = .ok t := by
  intro v hv
  unfold textOr at h
  rw [hv] at h
  exact ⟨_, h⟩

theorem keeps_mergeOption (h : Sound w s) {e : Bytes × Val} (he : e.2.WF) : Holds w (mergeOption w s e) := by
  unfold mergeOption
  refine keeps_withVal h fun short hsh => keeps_withVal h fun long _ => keeps_withVal h fun help hhelp => keeps_withVal h fun action _ => ?_
  have hc : short ≤ 255 := by
    unfold shortIn at hsh
    split at hsh
    · cases hsh; decide
    · rename_i v _
      cases hv : Build.asString w.fo.fltText v with
      | ok t => rw [hv] at hsh; cases hsh; exact firstChar_le t
      | throw x => rw [hv] at hsh; cases hsh
      | ub => rw [hv] at hsh; cases hsh
  cases ha : addOption s.reg e.1 short long help (actionOf action) with
  | mk t r =>
    cases r with
    | ok id => exact keeps_initOpt (h.addOption hc ha nofun).1 he (help_text hhelp)
    | throw x => exact fun _ => (h.addOption hc ha nofun).1
    | ub => exact fun hn => absurd rfl hn

theorem keeps_mergeArgument (h : Sound w s) {o : Val} (ho : o.WF) : Holds w (mergeArgument w s o) := by
  unfold mergeArgument
  split
  · exact keeps_ok h
  · refine keeps_withVal h fun kp _ => keeps_withVal h fun help hhelp => keeps_withVal h fun action _ => ?_
    cases ha : addArgument s.reg kp help (actionOf action) with
    | mk t r =>
      cases r with
      | ok id => exact keeps_initOpt (h.addArgument ha nofun).1 ho (help_text hhelp)
      | throw x => exact fun _ => (h.addArgument ha nofun).1
      | ub => exact fun hn => absurd rfl hn

theorem entryNamed_entry (h : Inv s.reg) {t : Bytes} {id : Int32} (he : entryNamed s t = .ok id) : ∃ o, s.entry id = some o := by
  unfold entryNamed at he
  split at he
  · unfold entryAt at he
    split at he
    · rename_i i hi
      cases he
      obtain ⟨o, ho, _⟩ := h.pathOf _ _ hi
      exact ⟨o, ho⟩
    · cases he
  · cases he
  · cases he

theorem keeps_mergeGroup (h : Sound w s) (e : Bytes × Val) : Holds w (mergeGroup w s e) := by
  unfold mergeGroup initGroup
  have h0 := h.getGroup e.1
  split
  · exact fun hn => absurd rfl hn
  · refine keeps_withVal h0 fun a1 _ => ?_
    have h1 := h0.setGroup e.1 (fun g => { g with title := a1 }) fun _ => rfl
    refine keeps_withVal h1 fun a2 _ => ?_
    have h2 := h1.setGroup e.1 (fun g => { g with description := a2 }) fun _ => rfl
    refine keeps_withVal h2 fun a3 _ => ?_
    have h3 := h2.setGroup e.1 (fun g => { g with required := a3 }) fun _ => rfl
    refine keeps_withVal h3 fun a4 _ => ?_
    have h4 := h3.setGroup e.1 (fun g => { g with exclusive := a4 }) fun _ => rfl
    refine keeps_withVal h4 fun a5 _ => ?_
    refine keeps_each _ (Sound.setGroup ?_ e.1 (fun g => { g with advanced := a5 }) fun _ => rfl) fun v _ s hs => ?_
    · exact h4.of_eq rfl rfl
    unfold mergeMember
    refine keeps_withVal hs fun t _ => keeps_withVal hs fun id hid => ?_
    obtain ⟨o, ho⟩ := entryNamed_entry hs.reg hid
    exact keeps_ok (hs.addMember e.1 ho)

theorem wf_mapIn {d : Val} (h : d.WF) (k : Bytes) : ∀ e ∈ mapIn d k, e.2.WF := by
  unfold mapIn
  cases d with
  | map m =>
    show ∀ e ∈ (match AMap.get m k with | some (Val.map m) => m | _ => []), _
    cases hg : AMap.get m k with
    | none => nofun
    | some v =>
      have hv : v.WF := getElem?_wf (e := .key k) h hg
      cases v with
      | map m' => rw [Val.WF, WFMap_iff] at hv; exact hv.2
      | _ => nofun
  | _ => nofun

theorem wf_listIn {d : Val} (h : d.WF) (k : Bytes) : ∀ e ∈ listIn d k, e.WF := by
  unfold listIn
  cases d with
  | map m =>
    show ∀ e ∈ (match AMap.get m k with | some (Val.list m) => m | _ => []), _
    cases hg : AMap.get m k with
    | none => nofun
    | some v =>
      have hv : v.WF := getElem?_wf (e := .key k) h hg
      cases v with
      | list m' => rw [Val.WF, WFList_iff] at hv; exact hv
      | _ => nofun
  | _ => nofun

theorem keeps_mergeDescription (h : Sound w s) {d : Val} (hd : d.WF) : Holds w (mergeDescription w s d) := by
  unfold mergeDescription
  refine keeps_next (keeps_each _ h fun e he s hs => keeps_mergeOption hs (wf_mapIn hd _ e he)) fun s hs => ?_
  refine keeps_next (keeps_each _ hs fun e he s hs => keeps_mergeGroup hs e) fun s hs => ?_
  exact keeps_each _ hs fun e he s hs => keeps_mergeArgument hs (wf_listIn hd _ e he)

/-- Short options fit a character; values are values. -/
def PCall.proper : PCall → Prop
  | .addOption _ short _ _ _ => short ≤ 255
  | .merge d => d.WF
  | _ => True

theorem keeps_step (h : Sound w s) (c : PCall) (hc : c.proper) : Holds w (c.step w s) := by
  cases c with
  | conflictResolution on => exact keeps_ok (h.same (t := { s.reg with resolve := on }) ⟨rfl, rfl, rfl, rfl, rfl, rfl⟩ (Int.le_refl _))
  | addHelp => exact fun _ => h.of_eq rfl rfl
  | addOption k sh l hp a =>
    show Holds w (onReg s (addOption s.reg k sh l hp a) _)
    cases ha : addOption s.reg k sh l hp a with
    | mk t r =>
      cases r with
      | ok id => exact keeps_ok (h.addOption hc ha nofun).1
      | throw x => exact fun _ => (h.addOption hc ha nofun).1
      | ub => exact fun hn => absurd rfl hn
  | addArgument k hp =>
    show Holds w (onReg s (addArgument s.reg k hp .store) _)
    cases ha : addArgument s.reg k hp .store with
    | mk t r =>
      cases r with
      | ok id => exact keeps_ok (h.addArgument ha nofun).1
      | throw x => exact fun _ => (h.addArgument ha nofun).1
      | ub => exact fun hn => absurd rfl hn
  | set id f =>
    show Holds w (setEntry w.p s id f)
    unfold setEntry
    split
    · exact keeps_ok h
    · rename_i o ho
      refine keeps_ok ?_
      have : Sound w (setCfg s id fun _ => (f.run w.p o.cfg).1) :=
        h.setCfg id _ fun o' ho' => by rw [ho] at ho'; cases ho'; exact Setter.fine w.p (h.told id o ho).2 f
      split
      · exact this.of_eq rfl rfl
      · exact this
  | joinGroup id n =>
    show Holds w (match s.entry id with | none => (s, .ok ()) | some _ => (addMember (getGroup s n) n id, .ok ()))
    cases ho : s.entry id with
    | none => exact keeps_ok h
    | some o => exact keeps_ok ((h.getGroup n).addMember n (o := o) ho)
  | group n => exact keeps_ok (h.getGroup n)
  | groupTitle n t => exact fun _ => h.setGroup n (fun g => { g with title := t }) fun _ => rfl
  | groupDescription n t => exact fun _ => h.setGroup n (fun g => { g with description := t }) fun _ => rfl
  | groupExclusive n b => exact fun _ => h.setGroup n (fun g => { g with exclusive := b }) fun _ => rfl
  | groupRequired n b => exact fun _ => h.setGroup n (fun g => { g with required := b }) fun _ => rfl
  | groupAdvanced n b => exact fun _ => Sound.setGroup (s := { s with haveAdvanced := true }) (h.of_eq rfl rfl) n (fun g => { g with advanced := b }) fun _ => rfl
  | groupAdd n k =>
    show Holds w (match find s.groups n with | none => (s, .ok ()) | some _ => withVal s (entryNamed s k) fun id => (addMember s n id, .ok ()))
    split
    · exact keeps_ok h
    · refine keeps_withVal h fun id hid => ?_
      obtain ⟨o, ho⟩ := entryNamed_entry h.reg hid
      exact keeps_ok (h.addMember n ho)
  | setTitle t => exact keeps_ok h
  | setDescription t => exact keeps_ok h
  | setEpilog t => exact keeps_ok h
  | merge d => exact keeps_mergeDescription h hc

/-- A parser a program can have. -/
def Built (w : World) (P : Parser) : Prop :=
  ∃ title help cs, (∀ c ∈ cs, PCall.proper c) ∧ build w (newParser title help) cs = some P

theorem build_sound : ∀ (cs : List PCall) {P Q : Parser}, Sound w P.st → (∀ c ∈ cs, PCall.proper c) → build w P cs = some Q → Sound w Q.st
  | [], P, Q, h, _, hb => by cases hb; exact h
  | c :: cs, P, Q, h, hc, hb => by
    have hk := keeps_step h c (hc c List.mem_cons_self)
    unfold build at hb
    have hst : (c.run w P).2 ≠ .ub → Sound w (c.run w P).1.st := by
      intro hn
      have h1 := hk hn
      cases c <;> first | exact h1 | exact h
    split at hb
    · cases hb
    · rename_i hn
      exact build_sound cs (hst (fun e => hn e)) (fun x hx => hc x (List.mem_cons_of_mem _ hx)) hb

theorem Built.sound {P : Parser} (h : Built w P) : Sound w P.st := by
  obtain ⟨t, b, cs, hc, hb⟩ := h
  exact build_sound cs (sound_init w b) hc hb

end Verif.Args
