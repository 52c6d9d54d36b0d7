import Verif.Args.DescMerge
/-!
# Merging all options and arguments of a description
-/

namespace Verif.Args
open Verif JsonDrv Schema

/-- Two lists of the same length, related element by element. -/
inductive Both {α β : Type} (R : α → β → Prop) : List α → List β → Prop where
  | nil : Both R [] []
  | cons {a b as bs} : R a b → Both R as bs → Both R (a :: as) (b :: bs)

theorem Both.append {α β : Type} {R : α → β → Prop} {as bs cs ds} (h : Both R as bs) (h' : Both R cs ds) : Both R (as ++ cs) (bs ++ ds) := by
  induction h with
  | nil => exact h'
  | cons h1 _ ih => exact .cons h1 ih

theorem Both.imp {α β : Type} {R S : α → β → Prop} {as bs} (h : Both R as bs) (hi : ∀ a b, R a b → S a b) : Both S as bs := by
  induction h with
  | nil => exact .nil
  | cons h1 _ ih => exact .cons (hi _ _ h1) ih

theorem Both.length {α β : Type} {R : α → β → Prop} {as bs} (h : Both R as bs) : as.length = bs.length := by
  induction h with
  | nil => rfl
  | cons _ _ ih => simp [ih]

theorem Both.left {α β : Type} {R : α → β → Prop} {as bs} (h : Both R as bs) {a : α} (ha : a ∈ as) : ∃ b, b ∈ bs ∧ R a b := by
  induction h with
  | nil => cases ha
  | cons h1 _ ih =>
    rcases List.mem_cons.1 ha with rfl | ha
    · exact ⟨_, List.mem_cons_self, h1⟩
    · obtain ⟨b, h2, h3⟩ := ih ha; exact ⟨b, List.mem_cons_of_mem _ h2, h3⟩

theorem Both.right {α β : Type} {R : α → β → Prop} {as bs} (h : Both R as bs) {b : β} (hb : b ∈ bs) : ∃ a, a ∈ as ∧ R a b := by
  induction h with
  | nil => cases hb
  | cons h1 _ ih =>
    rcases List.mem_cons.1 hb with rfl | hb
    · exact ⟨_, List.mem_cons_self, h1⟩
    · obtain ⟨a, h2, h3⟩ := ih hb; exact ⟨a, List.mem_cons_of_mem _ h2, h3⟩

/-- Two entries have different key paths and no name in common. -/
def Distinct (a b : Opt) : Prop :=
  PathM.pathString a.path ≠ PathM.pathString b.path ∧ (a.long ≠ [] → a.long ≠ b.long) ∧
  (a.short > 0 → b.short > 0 → toChar a.short ≠ toChar b.short)

theorem Distinct.symm {a b : Opt} (h : Distinct a b) : Distinct b a :=
  ⟨fun e => h.1 e.symm, fun hb e => h.2.1 (fun h0 => hb (e.trans h0)) e.symm, fun h1 h2 e => h.2.2 h2 h1 e.symm⟩

theorem Alike.refl (a : Opt) : Alike a a := ⟨rfl, .inl rfl, rfl, rfl, fun _ => rfl⟩

theorem Alike.trans {a b c : Opt} (h : Alike a b) (h' : Alike b c) : Alike a c := by
  refine ⟨h'.path.trans h.path, ?_, h'.long.trans h.long, h'.desc.trans h.desc, fun hu => ?_⟩
  · rcases h.short with e | ⟨e1, e2⟩
    · rw [← e]; exact h'.short
    · refine .inr ⟨e1, ?_⟩
      rcases h'.short with e | ⟨_, e⟩
      · rw [e]; exact e2
      · exact e
  · have := h.type hu
    rw [← this]; rw [← this] at hu; exact h'.type hu

theorem Distinct.alike {a b b' : Opt} (h : Distinct a b) (hb : Alike b b') : Distinct a b' := by
  refine ⟨by rw [hb.path]; exact h.1, by rw [hb.long]; exact h.2.1, fun h1 h2 => ?_⟩
  rcases hb.short with e | ⟨_, e⟩
  · rw [e]; rw [e] at h2; exact h.2.2 h1 h2
  · exact absurd h2 e

/-- The entries stay, and those with the numbers `ids` are new. -/
structure Grown (s s' : St) (ids : List Int32) (os : List Opt) : Prop where
  inv : Inv s'.reg
  kept : ∀ i o, s.entry i = some o → ∃ o', s'.entry i = some o' ∧ Alike o o'
  fresh : ∀ i ∈ ids, s.entry i = none
  nodup : ids.Nodup
  new : Both (fun i o => ∃ o', s'.entry i = some o' ∧ Alike o o') ids os
  only : ∀ i o', s'.entry i = some o' → (∃ o, s.entry i = some o ∧ Alike o o') ∨ i ∈ ids
  count : s.reg.count.toInt ≤ s'.reg.count.toInt ∧ s'.reg.count.toInt ≤ s.reg.count.toInt + ids.length

theorem Grown.refl {s : St} (h : Inv s.reg) : Grown s s [] [] :=
  ⟨h, fun _ o h => ⟨o, h, .refl o⟩, nofun, .nil, .nil, fun _ o h => .inl ⟨o, h, .refl o⟩, ⟨by omega, by simp⟩⟩

theorem Grown.trans {s t u : St} {ids ids' os os'} (h : Grown s t ids os) (h' : Grown t u ids' os') : Grown s u (ids ++ ids') (os ++ os') := by
  refine ⟨h'.inv, fun i o ho => ?_, fun i hi => ?_, ?_, ?_, fun i o' ho' => ?_, ?_⟩
  · obtain ⟨o1, h1, a1⟩ := h.kept i o ho
    obtain ⟨o2, h2, a2⟩ := h'.kept i o1 h1
    exact ⟨o2, h2, a1.trans a2⟩
  · rcases List.mem_append.1 hi with hi | hi
    · exact h.fresh i hi
    · cases e : s.entry i with
      | none => rfl
      | some o =>
        obtain ⟨o1, h1, _⟩ := h.kept i o e
        rw [h'.fresh i hi] at h1; cases h1
  · refine List.nodup_append.2 ⟨h.nodup, h'.nodup, fun a ha b hb => ?_⟩
    rintro rfl
    obtain ⟨o, _, o', h1, _⟩ := h.new.left ha
    rw [h'.fresh a hb] at h1; cases h1
  · refine (h.new.imp fun i o ⟨o1, h1, a1⟩ => ?_).append h'.new
    obtain ⟨o2, h2, a2⟩ := h'.kept i o1 h1
    exact ⟨o2, h2, a1.trans a2⟩
  · rcases h'.only i o' ho' with ⟨o1, h1, a1⟩ | h1
    · rcases h.only i o1 h1 with ⟨o2, h2, a2⟩ | h2
      · exact .inl ⟨o2, h2, a2.trans a1⟩
      · exact .inr (List.mem_append.2 (.inl h2))
    · exact .inr (List.mem_append.2 (.inr h1))
  · have h1 := h.count
    have h2 := h'.count
    rw [List.length_append]
    omega

theorem Added.grown {s s' : St} {id : Int32} {o o' : Opt} (h : Added s s' id o') (ha : Alike o o') : Grown s s' [id] [o] := by
  refine ⟨h.inv, fun i x hx => ?_, ?_, by simp, .cons ⟨o', h.entry, ha⟩ .nil, fun i x hx => ?_, h.count⟩
  · have : i ≠ id := by rintro rfl; rw [h.fresh] at hx; cases hx
    exact ⟨x, by rw [h.others i this]; exact hx, .refl x⟩
  · intro i hi; simp at hi; subst hi; exact h.fresh
  · by_cases e : i = id
    · exact .inr (by simp [e])
    · rw [h.others i e] at hx; exact .inl ⟨x, hx, .refl x⟩

theorem each_nil {α : Type} (f : St → α → Effect) (s : St) : each f s [] = (s, .ok ()) := rfl

theorem each_cons {α : Type} (f : St → α → Effect) (s s' : St) (x : α) (xs : List α) (h : f s x = (s', .ok ())) : each f s (x :: xs) = each f s' xs := by
  show next (f s x) _ = _
  rw [h]; rfl

theorem free_path {s : St} (hs : Inv s.reg) {o : Opt} (h : ∀ i q, s.entry i = some q → Distinct o q) :
    find s.reg.paths (PathM.pathString o.path) = none := by
  cases e : find s.reg.paths (PathM.pathString o.path) with
  | none => rfl
  | some id =>
    obtain ⟨q, h1, h2⟩ := hs.pathOf _ _ e
    exact absurd h2.symm (h id q h1).1

theorem free_long {s : St} (hs : Inv s.reg) {o : Opt} (h : ∀ i q, s.entry i = some q → Distinct o q) (hl : o.long ≠ []) :
    find s.reg.longs o.long = none := by
  cases e : find s.reg.longs o.long with
  | none => rfl
  | some id =>
    obtain ⟨q, h1, h2⟩ := hs.longOf _ _ e
    exact absurd h2.symm ((h id q h1).2.1 hl)

theorem free_short {s : St} (hs : Inv s.reg) {o : Opt} (h : ∀ i q, s.entry i = some q → Distinct o q) (hl : o.short > 0) :
    find s.reg.shorts (toChar o.short) = none := by
  cases e : find s.reg.shorts (toChar o.short) with
  | none => rfl
  | some id =>
    obtain ⟨q, h1, h2, h3⟩ := hs.shortOf _ _ e
    exact absurd h3.symm ((h id q h1).2.2 hl h2)

theorem room_count {c : Int32} {n : Nat} (h : c.toInt + (n + 1) ≤ Int32.maxValue.toInt) : c ≠ Int32.maxValue := by
  rintro rfl
  omega

/-- What the loop over the entries needs of the others. -/
theorem Added.apart {s s' : St} {id : Int32} {o o' : Opt} (h : Added s s' id o') (ha : Alike o o') {os : List Opt}
    (hf : ∀ x ∈ o :: os, ∀ i q, s.entry i = some q → Distinct x q) (hp : (o :: os).Pairwise Distinct) :
    ∀ x ∈ os, ∀ i q, s'.entry i = some q → Distinct x q := by
  intro x hx i q hq
  by_cases e : i = id
  · subst e
    rw [h.entry] at hq; cases hq
    exact (((List.pairwise_cons.1 hp).1 x hx).symm).alike ha
  · rw [h.others i e] at hq
    exact hf x (List.mem_cons_of_mem _ hx) i q hq

/-- All options of a description. -/
theorem each_options {w : World} {ls : List (Bytes × Val)} {os : List Opt}
    (hb : Both (fun e o => e.1 = PathM.pathString o.path ∧ describeOpt o = .ok e.2) ls os) :
    ∀ {s : St}, Inv s.reg → (∀ o ∈ os, Told w o ∧ Lossless o ∧ (o.long ≠ [] ∨ o.short > 0)) → os.Pairwise Distinct →
      (∀ o ∈ os, ∀ i q, s.entry i = some q → Distinct o q) → s.reg.count.toInt + os.length ≤ Int32.maxValue.toInt →
      ∃ s' ids, each (mergeOption w) s ls = (s', .ok ()) ∧ Grown s s' ids os ∧ s'.reg.options = s.reg.options ++ ids ∧
        s'.reg.arguments = s.reg.arguments ∧ s'.groups = s.groups := by
  induction hb with
  | nil => exact fun hs _ _ _ _ => ⟨_, [], each_nil _ _, .refl hs, by simp, rfl, rfl⟩
  | @cons e o ls os h1 hb ih =>
    intro s hs hall hpw hfr hcnt
    obtain ⟨k, d⟩ := e
    obtain ⟨hk, hd⟩ := h1
    simp only at hk hd
    obtain ⟨ho1, ho2, ho3⟩ := hall o List.mem_cons_self
    have hfo := hfr o List.mem_cons_self
    simp only [List.length_cons] at hcnt
    obtain ⟨s1, id, o', hm, hadd, hop, har, hal⟩ := mergeOption_described hs ho1 ho2 ho3 hd (free_path hs hfo)
      (free_short hs hfo) (free_long hs hfo) (room_count (n := os.length) (by omega))
    have hc := hadd.count
    obtain ⟨s2, ids, he, hg, hop2, har2, hgr⟩ := ih hadd.inv (fun x hx => hall x (List.mem_cons_of_mem _ hx)) (List.pairwise_cons.1 hpw).2
      (hadd.apart hal hfr hpw) (by omega)
    refine ⟨s2, id :: ids, ?_, (hadd.grown hal).trans hg, ?_, har2.trans har, hgr.trans hadd.groups⟩
    · subst hk; rw [each_cons _ _ _ _ _ hm]; exact he
    · rw [hop2, hop, List.append_assoc]; rfl

/-- All arguments of a description. -/
theorem each_arguments {w : World} {ls : List Val} {os : List Opt} (hb : Both (fun d o => describeOpt o = .ok d) ls os) :
    ∀ {s : St}, Inv s.reg → (∀ o ∈ os, Told w o ∧ Lossless o ∧ ¬ o.short > 0 ∧ o.long = [] ∧ (optGet o.cfg kMinArgs).isSome ∧
        (optGet o.cfg kMaxArgs).isSome) → os.Pairwise Distinct →
      (∀ o ∈ os, ∀ i q, s.entry i = some q → Distinct o q) → s.reg.count.toInt + os.length ≤ Int32.maxValue.toInt →
      ∃ s' ids, each (mergeArgument w) s ls = (s', .ok ()) ∧ Grown s s' ids os ∧ s'.reg.options = s.reg.options ∧
        s'.reg.arguments = s.reg.arguments ++ ids ∧ s'.groups = s.groups := by
  induction hb with
  | nil => exact fun hs _ _ _ _ => ⟨_, [], each_nil _ _, .refl hs, rfl, by simp, rfl⟩
  | @cons d o ls os hd hb ih =>
    intro s hs hall hpw hfr hcnt
    obtain ⟨ho1, ho2, ho3, ho4, ho5, ho6⟩ := hall o List.mem_cons_self
    have hfo := hfr o List.mem_cons_self
    simp only [List.length_cons] at hcnt
    obtain ⟨s1, id, o', hm, hadd, hop, har, hal⟩ := mergeArgument_described hs ho1 ho2 ho3 ho4 ho5 ho6 hd (free_path hs hfo)
      (room_count (n := os.length) (by omega))
    have hc := hadd.count
    obtain ⟨s2, ids, he, hg, hop2, har2, hgr⟩ := ih hadd.inv (fun x hx => hall x (List.mem_cons_of_mem _ hx)) (List.pairwise_cons.1 hpw).2
      (hadd.apart hal hfr hpw) (by omega)
    refine ⟨s2, id :: ids, ?_, (hadd.grown hal).trans hg, hop2.trans hop, ?_, hgr.trans hadd.groups⟩
    · rw [each_cons _ _ _ _ _ hm]; exact he
    · rw [har2, har, List.append_assoc]; rfl

/-! ## Describing -/

theorem describeOptions_congr {s s' : St} : ∀ (ids : List Int32) (m : List (Bytes × Val)),
    (∀ i ∈ ids, ∃ o o', s.entry i = some o ∧ s'.entry i = some o' ∧ Alike o o') → describeOptions s' ids m = describeOptions s ids m
  | [], _, _ => rfl
  | i :: ids, m, h => by
    obtain ⟨o, o', h1, h2, ha⟩ := h i List.mem_cons_self
    unfold describeOptions
    rw [h1, h2]
    simp only []
    rw [ha.desc, ha.path]
    cases describeOpt o with
    | ok d => exact describeOptions_congr ids _ fun i hi => h i (List.mem_cons_of_mem _ hi)
    | throw e => rfl
    | ub => rfl

theorem describeArguments_congr {s s' : St} : ∀ (ids : List Int32),
    (∀ i ∈ ids, ∃ o o', s.entry i = some o ∧ s'.entry i = some o' ∧ Alike o o') → describeArguments s' ids = describeArguments s ids
  | [], _ => rfl
  | i :: ids, h => by
    obtain ⟨o, o', h1, h2, ha⟩ := h i List.mem_cons_self
    unfold describeArguments
    rw [h1, h2]
    simp only []
    rw [ha.desc, describeArguments_congr ids fun i hi => h i (List.mem_cons_of_mem _ hi)]

theorem describeOptions_append {s : St} : ∀ (is js : List Int32) {m m' : List (Bytes × Val)},
    describeOptions s is m = .ok m' → describeOptions s (is ++ js) m = describeOptions s js m'
  | [], js, m, m', h => by cases h; rfl
  | i :: is, js, m, m', h => by
    rw [List.cons_append]
    unfold describeOptions at h ⊢
    split at h
    · cases h
    · split at h
      · exact (describeOptions_append is js h).trans (by cases js <;> rfl)
      · cases h
      · cases h

theorem describeArguments_append {s : St} : ∀ (is js : List Int32) {xs ys : List Val},
    describeArguments s is = .ok xs → describeArguments s js = .ok ys → describeArguments s (is ++ js) = .ok (xs ++ ys)
  | [], js, xs, ys, h, h' => by cases h; exact h'
  | i :: is, js, xs, ys, h, h' => by
    rw [List.cons_append]
    unfold describeArguments at h ⊢
    split at h
    · cases h
    · rename_i o ho
      cases hd : describeOpt o with
      | throw e => rw [hd] at h; cases h
      | ub => rw [hd] at h; cases h
      | ok d =>
        rw [hd] at h
        cases hr : describeArguments s is with
        | throw e => rw [hr] at h; cases h
        | ub => rw [hr] at h; cases h
        | ok ds =>
          rw [hr] at h
          cases h
          rw [describeArguments_append is js hr h']; rfl

/-- The description lists what is registered. -/
theorem describeOptions_both {s : St} : ∀ (ids : List Int32) {m m' : List (Bytes × Val)}, describeOptions s ids m = .ok m' →
    ∃ (os : List Opt) (ls : List (Bytes × Val)), Both (fun i o => s.entry i = some o) ids os ∧
      Both (fun e o => e.1 = PathM.pathString o.path ∧ describeOpt o = .ok e.2) ls os ∧ m' = mergeKeys m ls
  | [], m, m', h => by cases h; exact ⟨[], [], .nil, .nil, rfl⟩
  | i :: ids, m, m', h => by
    unfold describeOptions at h
    split at h
    · cases h
    · rename_i o ho
      split at h
      · rename_i d hd
        obtain ⟨os, ls, h1, h2, h3⟩ := describeOptions_both ids h
        exact ⟨o :: os, (PathM.pathString o.path, d) :: ls, .cons ho h1, .cons ⟨rfl, hd⟩ h2, h3⟩
      · cases h
      · cases h

theorem describeArguments_both {s : St} : ∀ (ids : List Int32) {ls : List Val}, describeArguments s ids = .ok ls →
    ∃ (os : List Opt), Both (fun i o => s.entry i = some o) ids os ∧ Both (fun d o => describeOpt o = .ok d) ls os
  | [], ls, h => by cases h; exact ⟨[], .nil, .nil⟩
  | i :: ids, ls, h => by
    unfold describeArguments at h
    split at h
    · cases h
    · rename_i o ho
      cases hd : describeOpt o with
      | throw e => rw [hd] at h; cases h
      | ub => rw [hd] at h; cases h
      | ok d =>
        rw [hd] at h
        cases hr : describeArguments s ids with
        | throw e => rw [hr] at h; cases h
        | ub => rw [hr] at h; cases h
        | ok ds =>
          rw [hr] at h
          cases h
          obtain ⟨os, h1, h2⟩ := describeArguments_both ids hr
          exact ⟨o :: os, .cons ho h1, .cons hd h2⟩

/-- Describing new entries that are like the described ones. -/
theorem describeOptions_new {s : St} {ls : List (Bytes × Val)} {os : List Opt} {ids : List Int32}
    (hb : Both (fun e o => e.1 = PathM.pathString o.path ∧ describeOpt o = .ok e.2) ls os)
    (hn : Both (fun i o => ∃ o', s.entry i = some o' ∧ Alike o o') ids os) (m : List (Bytes × Val)) :
    describeOptions s ids m = .ok (mergeKeys m ls) := by
  induction hb generalizing ids m with
  | nil => cases hn; rfl
  | @cons e o ls os h1 hb ih =>
    obtain ⟨k, d⟩ := e
    obtain ⟨hk, hd⟩ := h1
    simp only at hk hd
    cases hn with
    | cons h2 hn =>
      obtain ⟨o', he, ha⟩ := h2
      unfold describeOptions
      rw [he]
      simp only []
      rw [ha.desc, hd]
      simp only []
      rw [ih hn, ha.path, ← hk]
      rfl

theorem describeArguments_new {s : St} {ls : List Val} {os : List Opt} {ids : List Int32} (hb : Both (fun d o => describeOpt o = .ok d) ls os)
    (hn : Both (fun i o => ∃ o', s.entry i = some o' ∧ Alike o o') ids os) : describeArguments s ids = .ok ls := by
  induction hb generalizing ids with
  | nil => cases hn; rfl
  | cons hd hb ih =>
    cases hn with
    | cons h2 hn =>
      obtain ⟨o', he, ha⟩ := h2
      unfold describeArguments
      rw [he]
      simp only []
      rw [ha.desc, hd, ih hn]
      rfl

/-! ## Orders -/

theorem Both.perm {α β : Type} {R : α → β → Prop} {as as' : List α} (hp : as.Perm as') : ∀ {bs : List β}, Both R as bs →
    ∃ bs', bs.Perm bs' ∧ Both R as' bs' := by
  induction hp with
  | nil => intro bs h; exact ⟨bs, .refl _, h⟩
  | cons a _ ih =>
    intro bs h
    cases h with
    | cons h1 h2 =>
      obtain ⟨bs', h3, h4⟩ := ih h2
      exact ⟨_ :: bs', h3.cons _, .cons h1 h4⟩
  | swap a b l =>
    intro bs h
    cases h with
    | cons h1 h2 => cases h2 with
      | cons h2 h3 => exact ⟨_, .swap _ _ _, .cons h2 (.cons h1 h3)⟩
  | trans _ _ ih1 ih2 =>
    intro bs h
    obtain ⟨bs1, h1, h2⟩ := ih1 h
    obtain ⟨bs2, h3, h4⟩ := ih2 h2
    exact ⟨bs2, h1.trans h3, h4⟩

theorem set_perm {m : List (Bytes × Val)} {k : Bytes} {v : Val} (h : AMap.get m k = none) : (AMap.set m k v).Perm ((k, v) :: m) := by
  induction m with
  | nil => exact .refl _
  | cons e r ih =>
    obtain ⟨k', v'⟩ := e
    simp only [AMap.get] at h
    split at h
    · cases h
    · rename_i hne
      simp only [AMap.set, if_neg hne]
      split
      · exact .refl _
      · exact ((ih h).cons _).trans (.swap _ _ _)

theorem mergeKeys_perm {m ls : List (Bytes × Val)} (h : ∀ e ∈ ls, AMap.get m e.1 = none) (hn : (ls.map (·.1)).Nodup) :
    (mergeKeys m ls).Perm (ls ++ m) := by
  induction ls generalizing m with
  | nil => exact .refl _
  | cons e ls ih =>
    obtain ⟨k, v⟩ := e
    have hn' := List.nodup_cons.1 hn
    refine (ih (m := AMap.set m k v) (fun e he => ?_) hn'.2).trans ?_
    · rw [AMap.get_set_other _ _ _ _ (fun h' => hn'.1 (by rw [← h']; exact List.mem_map_of_mem (f := (·.1)) he))]
      exact h e (List.mem_cons_of_mem _ he)
    · refine ((set_perm (h _ List.mem_cons_self)).append_left ls).trans ?_
      exact List.perm_middle

/-- The entries of a parser are distinct. -/
theorem Inv.distinct {s : Reg} (h : Inv s) {i j : Int32} (hne : i ≠ j) {a b : Opt} (ha : find s.optionMap i = some a) (hb : find s.optionMap j = some b) :
    Distinct a b := by
  refine ⟨fun e => ?_, fun hl e => ?_, fun h1 h2 e => ?_⟩
  · have h1 := h.path i a ha
    rw [e, h.path j b hb] at h1
    exact hne (Option.some.inj h1).symm
  · have h1 := h.long i a ha hl
    rw [e, h.long j b hb (by rw [← e]; exact hl)] at h1
    exact hne (Option.some.inj h1).symm
  · have h3 := h.short i a ha h1
    rw [e, h.short j b hb h2] at h3
    exact hne (Option.some.inj h3).symm

theorem pairwise_distinct {s : St} (h : Inv s.reg) {ids : List Int32} {os : List Opt} (hb : Both (fun i o => s.entry i = some o) ids os)
    (hn : ids.Nodup) : os.Pairwise Distinct := by
  induction hb with
  | nil => exact .nil
  | cons h1 hb ih =>
    have hn' := List.nodup_cons.1 hn
    refine List.pairwise_cons.2 ⟨fun b hb' => ?_, ih hn'.2⟩
    obtain ⟨j, hj, hj'⟩ := hb.right hb'
    exact h.distinct (by rintro rfl; exact hn'.1 hj) h1 hj'

end Verif.Args
