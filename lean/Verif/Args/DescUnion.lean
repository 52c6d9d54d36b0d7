import Verif.Args.DescSound
/-!
# A merged description adds what it describes
-/

namespace Verif.Args
open Verif JsonDrv Schema

/-! ## Specification -/

/-- The members a group of a description lists; none if there is no such group. -/
def membersOf (g : Option Val) : List Val := (g.map (listIn · kMembers)).getD []

/-- A key of a group, if there is such a group and it has that key. -/
def says (g : Option Val) (k : Bytes) : Option Val := g.bind (getKey? · k)

/-- What becomes of a group: it is there if either had it, what `p` says of it holds before what `q` says, and it has the
members of both. -/
structure GroupUnion (q p r : Option Val) : Prop where
  there : r.isSome = (q.isSome || p.isSome)
  keys : ∀ k, k ≠ kMembers → says r k = (says p k).or (says q k)
  members : (membersOf r).Perm (membersOf q ++ membersOf p)

/-- The description `r` is `q` with all options, arguments and groups of `p`. -/
structure Union (q p r : Val) : Prop where
  texts : ∀ k, k = kTitle ∨ k = kDescription ∨ k = kEpilog → getKey? r k = getKey? q k
  options : ∀ k, AMap.get (mapIn r kOptions) k = (AMap.get (mapIn p kOptions) k).or (AMap.get (mapIn q kOptions) k)
  arguments : listIn r kArguments = listIn q kArguments ++ listIn p kArguments
  groups : ∀ n, GroupUnion (AMap.get (mapIn q kGroups) n) (AMap.get (mapIn p kGroups) n) (AMap.get (mapIn r kGroups) n)

/-! ## Proof -/

theorem Both.imp_mem {α β : Type} {R S : α → β → Prop} {as bs} (h : Both R as bs) (hi : ∀ a b, a ∈ as → b ∈ bs → R a b → S a b) : Both S as bs := by
  induction h with
  | nil => exact .nil
  | cons h1 _ ih =>
    exact .cons (hi _ _ List.mem_cons_self List.mem_cons_self h1)
      (ih fun a b ha hb => hi a b (List.mem_cons_of_mem _ ha) (List.mem_cons_of_mem _ hb))

theorem Both.map_right {α β γ : Type} {R : α → β → Prop} {S : α → γ → Prop} {as : List α} {bs : List β} (h : Both R as bs) (hi : ∀ a b, R a b → ∃ c, S a c) :
    ∃ cs, Both S as cs := Both.choose as fun a ha => by
      obtain ⟨b, _, hr⟩ := h.left ha
      exact hi a b hr

theorem Both.comp {α β γ : Type} {R : α → β → Prop} {S : α → γ → Prop} {as : List α} {bs : List β} {cs : List γ} (h : Both R as bs) (h' : Both S as cs) :
    Both (fun b c => ∃ a, R a b ∧ S a c) bs cs := by
  induction h generalizing cs with
  | nil => cases h'; exact .nil
  | cons h1 _ ih => cases h' with
    | cons h2 h3 => exact .cons ⟨_, h1, h2⟩ (ih h3)

theorem perm_foldl {ids xs : List Int32} (hn : ids.Nodup) (hd : ∀ i ∈ ids, i ∉ xs) : ids.foldl addOnce xs = xs ++ ids := by
  induction ids generalizing xs with
  | nil => simp
  | cons i ids ih =>
    have hn' := List.nodup_cons.1 hn
    have : addOnce xs i = xs ++ [i] := by unfold addOnce; rw [if_neg (hd i List.mem_cons_self)]
    rw [List.foldl_cons, this, ih hn'.2]
    · simp
    · intro j hj hm
      rcases List.mem_append.1 hm with hm | hm
      · exact hd j (List.mem_cons_of_mem _ hj) hm
      · simp at hm; subst hm; exact hn'.1 hj

/-- The key path an entry has, as a member of a group is listed. -/
def pathVal (s : St) (i : Int32) : Val :=
  match s.entry i with
  | some o => .str (PathM.pathString o.path)
  | none => .null

theorem both_map {s : St} {mem : List Val} {ids : List Int32}
    (h : Both (fun v i => ∃ o, v = Val.str (PathM.pathString o.path) ∧ s.entry i = some o) mem ids) : mem = ids.map (pathVal s) := by
  induction h with
  | nil => rfl
  | cons h1 _ ih =>
    obtain ⟨o, rfl, ho⟩ := h1
    rw [List.map_cons, ← ih]
    unfold pathVal
    rw [ho]

theorem map_both {s : St} {ids : List Int32} (h : ∀ i ∈ ids, ∃ o, s.entry i = some o) :
    Both (fun v i => ∃ o, v = Val.str (PathM.pathString o.path) ∧ s.entry i = some o) (ids.map (pathVal s)) ids := by
  induction ids with
  | nil => exact .nil
  | cons i ids ih =>
    obtain ⟨o, ho⟩ := h i List.mem_cons_self
    refine .cons ⟨o, ?_, ho⟩ (ih fun j hj => h j (List.mem_cons_of_mem _ hj))
    unfold pathVal; rw [ho]

theorem says_described {s : St} {ord : List Int32 → List Int32} {g : Group} {d : Val} (hk : ∀ i ∈ ord g.members, ∃ o, s.entry i = some o)
    (h : describeGroup s ord g = .ok d) : ∀ k, getKey? d k = groupSays g ((ord g.members).map (pathVal s)) k := by
  obtain ⟨mem, D, h1, rfl, h3⟩ := describeGroup_says h
  rw [both_map (keypaths_both _ h1)] at h3
  exact h3

theorem listIn_members {d : Val} {g : Group} {mem : List Val} (h : ∀ k, getKey? d k = groupSays g mem k) : listIn d kMembers = mem := by
  unfold listIn
  rw [h]
  rfl

/-- The text of a group that is overridden only by a text that is not empty. -/
theorem groupSays_over (g g0 : Group) (ids : List Int32) (m m1 m0 : List Val) {k : Bytes} (hk : k ≠ kMembers) :
    groupSays (g.over g0 ids) m k = (groupSays g m1 k).or (groupSays g0 m0 k) := by
  unfold groupSays
  simp only [if_neg hk]
  unfold Group.over
  by_cases h1 : k = kAdvanced
  · simp only [if_pos h1]; rfl
  by_cases h2 : k = kExclusive
  · simp only [if_neg h1, if_pos h2]; rfl
  by_cases h3 : k = kRequired
  · simp only [if_neg h1, if_neg h2, if_pos h3]; rfl
  by_cases h4 : k = kTitle
  · simp only [if_neg h1, if_neg h2, if_neg h3, if_pos h4]
    by_cases e : g.title ≠ []
    · simp only [if_pos e]; rfl
    · simp only [if_neg e]; rfl
  by_cases h5 : k = kDescription
  · simp only [if_neg h1, if_neg h2, if_neg h3, if_neg h4, if_pos h5]
    by_cases e : g.description ≠ []
    · simp only [if_pos e]; rfl
    · simp only [if_neg e]; rfl
  · simp only [if_neg h1, if_neg h2, if_neg h3, if_neg h4, if_neg h5]; rfl

theorem groupSays_new (g : Group) (ids : List Int32) (m m1 : List Val) {k : Bytes} (hk : k ≠ kMembers) :
    groupSays (g.over .new ids) m k = groupSays g m1 k := by
  unfold groupSays
  simp only [if_neg hk]
  unfold Group.over
  by_cases h1 : k = kAdvanced
  · simp only [if_pos h1]
  by_cases h2 : k = kExclusive
  · simp only [if_neg h1, if_pos h2]
  by_cases h3 : k = kRequired
  · simp only [if_neg h1, if_neg h2, if_pos h3]
  by_cases h4 : k = kTitle
  · simp only [if_neg h1, if_neg h2, if_neg h3, if_pos h4]
    by_cases e : g.title ≠ []
    · simp only [if_pos e]
    · simp only [if_neg e]; rfl
  by_cases h5 : k = kDescription
  · simp only [if_neg h1, if_neg h2, if_neg h3, if_neg h4, if_pos h5]
    by_cases e : g.description ≠ []
    · simp only [if_pos e]
    · simp only [if_neg e]; rfl
  · simp only [if_neg h1, if_neg h2, if_neg h3, if_neg h4, if_neg h5]

theorem pathVal_alike {s s' : St} {i j : Int32} {o o' : Opt} (h : s.entry i = some o) (h' : s'.entry j = some o') (ha : Alike o o') : pathVal s' j = pathVal s i := by
  unfold pathVal; rw [h, h']; simp only []; rw [ha.path]

theorem map_pathVal {s s' : St} {ids os} (hg : Grown s s' ids os) {is : List Int32} (h : ∀ i ∈ is, ∃ o, s.entry i = some o) :
    is.map (pathVal s') = is.map (pathVal s) := by
  refine List.map_congr_left fun i hi => ?_
  obtain ⟨o, ho⟩ := h i hi
  obtain ⟨o', ho', ha⟩ := hg.kept i o ho
  exact pathVal_alike ho ho' ha

/-- What `P` needs to be so that nothing of it is lost in its description: nothing of any entry is lost, every option has a
name, and only options are members of groups. -/
structure Describable (s : St) : Prop where
  entries : ∀ i o, s.entry i = some o → Lossless o
  named : ∀ i ∈ s.reg.options, ∀ o, s.entry i = some o → o.long ≠ [] ∨ o.short > 0
  members : ∀ n g, find s.groups n = some g → ∀ i ∈ g.members, i ∈ s.reg.options

theorem merge_union {w : World} {P Q : Parser} (hP : Sound w P.st) (hQ : Sound w Q.st) {ordP ordQ ord : List Int32 → List Int32}
    (oP : ∀ l, (ordP l).Perm l) (oQ : ∀ l, (ordQ l).Perm l) (o' : ∀ l, (ord l).Perm l) {dp dq : Val}
    (hdp : getDescription ordP P = .ok dp) (hdq : getDescription ordQ Q = .ok dq) (hL : Describable P.st)
    (hD : ∀ i j a b, P.st.entry i = some a → Q.st.entry j = some b → Distinct a b)
    (hc : Q.st.reg.count.toInt + (P.st.reg.options ++ P.st.reg.arguments).length ≤ Int32.maxValue.toInt) :
    ∃ s' r, mergeDescription w Q.st dp = (s', .ok ()) ∧ getDescription ord { Q with st := s' } = .ok r ∧ Union dq dp r := by
  obtain ⟨osP, asP, gsP, p1, p2, p3, p4, p5, p6, _⟩ := getDescription_parts hdp
  obtain ⟨osQ, asQ, gsQ, q1, q2, q3, q4, q5, q6, q7, q8, q9⟩ := getDescription_parts hdq
  have hnod := hP.reg.nodup
  obtain ⟨hno, hna, hdis⟩ := List.nodup_append.1 hnod
  -- options
  obtain ⟨os, ls, b1, b2, hos⟩ := describeOptions_both _ p1
  have hpw : os.Pairwise Distinct := pairwise_distinct hP.reg b1 hno
  have hkeys : ls.map (·.1) = os.map fun o => PathM.pathString o.path := by
    clear hos b1 hpw
    induction b2 with
    | nil => rfl
    | cons h1 _ ih => rw [List.map_cons, List.map_cons, ih, h1.1]
  have hkn : (ls.map (·.1)).Nodup := by
    rw [hkeys]
    exact (List.pairwise_map.2 (hpw.imp fun h => h.1))
  have hperm : ls.Perm osP := by
    rw [hos]
    have := mergeKeys_perm (m := []) (ls := ls) (fun _ _ => rfl) hkn
    rw [List.append_nil] at this
    exact this.symm
  obtain ⟨os', hpo, b2'⟩ := b2.perm hperm
  have hpw' : os'.Pairwise Distinct := (hpo.pairwise_iff fun h => h.symm).1 hpw
  have hosm : ∀ o ∈ os', ∃ i ∈ P.st.reg.options, P.st.entry i = some o := by
    intro o ho
    obtain ⟨i, hi, he⟩ := b1.right (hpo.mem_iff.2 ho)
    exact ⟨i, hi, he⟩
  have hlen : os'.length = P.st.reg.options.length := by rw [b1.length, hpo.length_eq]
  rw [List.length_append] at hc
  obtain ⟨s1, ids1, e1, g1, op1, ar1, gr1⟩ := each_options (w := w) b2' (s := Q.st) hQ.reg
    (fun o ho => by
      obtain ⟨i, hi, he⟩ := hosm o ho
      exact ⟨hP.told i o he, hL.entries i o he, hL.named i hi o he⟩) hpw'
    (fun o ho j q hq => by
      obtain ⟨i, hi, he⟩ := hosm o ho
      exact hD i j o q he hq) (by rw [hlen]; omega)
  -- groups
  have hmem : ∀ n g, find P.st.groups n = some g → ∀ i ∈ ordP g.members, ∃ o, P.st.entry i = some o := by
    intro n g hg i hi
    exact (hP.members n g hg).2 i ((oP _).mem_iff.1 hi)
  have hfind : ∀ n g, find P.st.groups n = some g → ∃ js, Both (fun i j => ∃ o o', P.st.entry i = some o ∧ s1.entry j = some o' ∧ Alike o o' ∧ j ∈ ids1) (ordP g.members) js := by
    intro n g hg
    refine Both.choose _ fun i hi => ?_
    have hio := hL.members n g hg i ((oP _).mem_iff.1 hi)
    obtain ⟨o, ho, he⟩ := b1.left hio
    obtain ⟨j, hj, o'', h1, h2⟩ := g1.new.right (hpo.mem_iff.1 ho)
    exact ⟨j, o, o'', he, h1, h2, hj⟩
  obtain ⟨f, hf⟩ : ∃ f : Bytes → List Int32, ∀ n g, find P.st.groups n = some g →
      Both (fun i j => ∃ o o', P.st.entry i = some o ∧ s1.entry j = some o' ∧ Alike o o' ∧ j ∈ ids1) (ordP g.members) (f n) := by
    have : ∀ n, ∃ js, ∀ g, find P.st.groups n = some g →
        Both (fun i j => ∃ o o', P.st.entry i = some o ∧ s1.entry j = some o' ∧ Alike o o' ∧ j ∈ ids1) (ordP g.members) js := by
      intro n
      cases h : find P.st.groups n with
      | none => exact ⟨[], nofun⟩
      | some g =>
        obtain ⟨js, hjs⟩ := hfind n g h
        exact ⟨js, fun g' hg' => by cases hg'; exact hjs⟩
    exact ⟨fun n => Classical.choose (this n), fun n => Classical.choose_spec (this n)⟩
  have hfmap : ∀ n g, find P.st.groups n = some g → (f n).map (pathVal s1) = (ordP g.members).map (pathVal P.st) := by
    intro n g hg
    have := hf n g hg
    generalize f n = js at this ⊢
    generalize ordP g.members = is at this ⊢
    induction this with
    | nil => rfl
    | cons h1 _ ih =>
      obtain ⟨o, o'', h2, h3, h4, _⟩ := h1
      rw [List.map_cons, List.map_cons, ih, pathVal_alike h2 h3 h4]
  have hfm : ∀ n g, find P.st.groups n = some g → (∀ j ∈ f n, j ∈ ids1 ∧ ∃ o, s1.entry j = some o ∧ o.path.getLast? ≠ some (.key [])) := by
    intro n g hg j hj
    obtain ⟨i, _, o, o'', h2, h3, h4, h5⟩ := (hf n g hg).right hj
    exact ⟨h5, o'', h3, by rw [h4.path]; exact (hL.entries i o h2).path⟩
  have hfn : ∀ n g, find P.st.groups n = some g → (f n).Nodup := by
    intro n g hg
    refine (hf n g hg).nodup_right ?_ ((oP _).nodup_iff.2 (hP.members n g hg).1)
    intro a a' j _ _ ⟨o, o1, h1, h2, h3, _⟩ ⟨u, u1, k1, k2, k3, _⟩
    rw [h2] at k2; cases k2
    by_cases e : a = a'
    · exact e
    · exact absurd (by rw [← h3.path, ← k3.path]) (hP.reg.distinct e h1 k1).1
  have bg := describeGroups_both _ p3
  obtain ⟨s2, e2, g2, op2, ar2, so2, fi2⟩ := each_groups (w := w) (f := f) (ls := gsP) (gs := P.st.groups) (s := s1) g1.inv
    (by rw [gr1]; exact hQ.names) hP.names
    (bg.imp_mem fun e x _ hx ⟨h1, h2⟩ => by
      obtain ⟨n, g⟩ := x
      have hg : find P.st.groups n = some g := by rw [find_get]; exact AMap.get_of_mem hP.names hx
      obtain ⟨mem, D, k1, k2, k3⟩ := describeGroup_says h2
      refine ⟨h1, mem, D, k2, k3, ?_⟩
      rw [both_map (keypaths_both _ k1), ← hfmap n g hg]
      have hm := map_both (s := s1) (ids := f n) fun j hj => by
        obtain ⟨_, o, ho, _⟩ := hfm n g hg j hj
        exact ⟨o, ho⟩
      exact hm.imp_mem fun v j _ hj ⟨o, h5, h6⟩ => by
        obtain ⟨_, o2, h7, h8⟩ := hfm n g hg j hj
        rw [h6] at h7; cases h7
        exact ⟨o, h5, h6, h8⟩)
  have g12 := g1.trans g2
  rw [List.append_nil, List.append_nil] at g12
  -- arguments
  obtain ⟨oa, a1, a2⟩ := describeArguments_both _ p2
  have hoam : ∀ o ∈ oa, ∃ i ∈ P.st.reg.arguments, P.st.entry i = some o := by
    intro o ho
    obtain ⟨i, hi, he⟩ := a1.right ho
    exact ⟨i, hi, he⟩
  have hlen2 : oa.length = P.st.reg.arguments.length := a1.length.symm
  have hcnt := g12.count
  have hlen3 : ids1.length = os'.length := g1.new.length
  obtain ⟨s3, ids3, e3, g3, op3, ar3, gr3⟩ := each_arguments (w := w) a2 (s := s2) g2.inv
    (fun o ho => by
      obtain ⟨i, hi, he⟩ := hoam o ho
      obtain ⟨h1, h2, h3, h4⟩ := hP.args i hi o he
      exact ⟨hP.told i o he, hL.entries i o he, h3, h4, h1, h2⟩) (pairwise_distinct hP.reg a1 hna)
    (fun o ho j q hq => by
      obtain ⟨i, hi, he⟩ := hoam o ho
      rcases g12.only j q hq with ⟨q0, h1, h2⟩ | h1
      · exact (hD i j o q0 he h1).alike h2
      · obtain ⟨x, hx, x', h2, h3⟩ := g12.new.left h1
        rw [hq] at h2; cases h2
        obtain ⟨k, hk, hk'⟩ := hosm x hx
        exact (hP.reg.distinct (fun e => hdis k hk i hi e.symm) he hk').alike h3) (by omega)
  have gall := g12.trans g3
  have hmd : mergeDescription w Q.st dp = (s3, .ok ()) := by
    unfold mergeDescription
    rw [p4, p5, p6, e1]
    simp only [next]
    rw [e2]
    simp only [next]
    exact e3
  -- the new description
  have hkeep : ∀ i ∈ Q.st.reg.options ++ Q.st.reg.arguments, ∃ o o', Q.st.entry i = some o ∧ s3.entry i = some o' ∧ Alike o o' := by
    intro i hi
    obtain ⟨o, ho⟩ := hQ.reg.known i hi
    obtain ⟨x, hx, ha⟩ := gall.kept i o ho
    exact ⟨o, x, ho, hx, ha⟩
  have hoo : s3.reg.options = Q.st.reg.options ++ ids1 := by rw [op3, op2, op1]
  have haa : s3.reg.arguments = Q.st.reg.arguments ++ ids3 := by rw [ar3, ar2, ar1]
  have r1 : describeOptions s3 s3.reg.options [] = .ok (mergeKeys osQ osP) := by
    rw [hoo]
    have h1 : describeOptions s3 Q.st.reg.options [] = .ok osQ := by
      rw [describeOptions_congr (s := Q.st) _ _ fun i hi => hkeep i (List.mem_append.2 (.inl hi))]
      exact q1
    rw [describeOptions_append _ _ h1]
    refine describeOptions_new b2' ?_ _
    exact g12.new.imp fun i o ⟨x, hx, ha⟩ => by
      obtain ⟨y, hy, hb⟩ := g3.kept i x hx
      exact ⟨y, hy, ha.trans hb⟩
  have r2 : describeArguments s3 s3.reg.arguments = .ok (asQ ++ asP) := by
    rw [haa]
    refine describeArguments_append _ _ ?_ (describeArguments_new a2 g3.new)
    rw [describeArguments_congr (s := Q.st) _ fun i hi => hkeep i (List.mem_append.2 (.inr hi))]
    exact q2
  have hgf : ∀ k, find s3.groups k = match find P.st.groups k with
      | some g => some (g.over ((find Q.st.groups k).getD .new) (f k))
      | none => find Q.st.groups k := by
    intro k
    rw [gr3, fi2, gr1]
    cases find P.st.groups k <;> rfl
  have hso : AMap.Sorted s3.groups := by rw [gr3]; exact so2
  have hfresh : ∀ n g, find P.st.groups n = some g → ∀ m g0, find Q.st.groups m = some g0 → ∀ j ∈ f n, j ∉ g0.members := by
    intro n g hg m g0 hg0 j hj hm
    obtain ⟨h1, _⟩ := hfm n g hg j hj
    obtain ⟨o, ho⟩ := (hQ.members m g0 hg0).2 j hm
    rw [g1.fresh j h1] at ho; cases ho
  have hs1 : ∀ n g, find P.st.groups n = some g → ∀ j ∈ f n, ∃ o, s3.entry j = some o := by
    intro n g hg j hj
    obtain ⟨_, o, ho, _⟩ := hfm n g hg j hj
    obtain ⟨x, hx, _⟩ := (g2.trans g3).kept j o ho
    exact ⟨x, hx⟩
  have hq3 : ∀ n g, find Q.st.groups n = some g → ∀ j ∈ g.members, ∃ o, s3.entry j = some o := by
    intro n g hg j hj
    obtain ⟨o, ho⟩ := (hQ.members n g hg).2 j hj
    obtain ⟨x, hx, _⟩ := gall.kept j o ho
    exact ⟨x, hx⟩
  -- members of the merged groups
  have hover : ∀ n g, find P.st.groups n = some g → (g.over ((find Q.st.groups n).getD .new) (f n)).members =
      ((find Q.st.groups n).getD .new).members ++ f n := by
    intro n g hg
    refine perm_foldl (hfn n g hg) fun j hj => ?_
    cases hq : find Q.st.groups n with
    | none => nofun
    | some g0 => exact hfresh n g hg n g0 hq j hj
  have hall : ∀ n g, find s3.groups n = some g → ∀ i ∈ g.members, ∃ o, s3.entry i = some o := by
    intro n g hg i hi
    rw [hgf] at hg
    cases hp : find P.st.groups n with
    | none => rw [hp] at hg; exact hq3 n g hg i hi
    | some gp =>
      rw [hp] at hg
      simp only [Option.some.injEq] at hg
      subst hg
      rw [hover n gp hp] at hi
      rcases List.mem_append.1 hi with hi | hi
      · cases hq : find Q.st.groups n with
        | none => rw [hq] at hi; cases hi
        | some g0 => rw [hq] at hi; exact hq3 n g0 hq i hi
      · exact hs1 n gp hp i hi
  obtain ⟨gs, r3⟩ := describeGroups_ok (s := s3) (ord := ord) s3.groups fun n g hg => by
    have hg' : find s3.groups n = some g := by rw [find_get]; exact AMap.get_of_mem hso hg
    have := keypaths_ok (map_both (s := s3) (ids := ord g.members) fun i hi => hall n g hg' i ((o' _).mem_iff.1 hi))
    obtain ⟨D, h, _⟩ := describeGroup_ok this
    exact ⟨_, h⟩
  obtain ⟨r, hr⟩ := getDescription_ok (ord := ord) (P := { Q with st := s3 }) r1 r2 r3
  obtain ⟨os3, as3, gs3, t1, t2, t3, t4, t5, t6, t7, t8, t9⟩ := getDescription_parts hr
  dsimp only at t1 t2 t3
  rw [r1] at t1; rw [r2] at t2; rw [r3] at t3
  cases t1; cases t2; cases t3
  refine ⟨s3, r, hmd, hr, ⟨?_, ?_, ?_, ?_⟩⟩
  · rintro k (rfl | rfl | rfl)
    · rw [t7, q7]
    · rw [t8, q8]
    · rw [t9, q9]
  · intro k
    rw [t4, p4, q4]
    refine get_mergeKeys ?_ k
    rw [hos]; exact sorted_mergeKeys (m := []) trivial _
  · rw [t5, p5, q5]
  · intro n
    rw [t6, p6, q6]
    have hnP := get_described bg n
    have hnQ := get_described (describeGroups_both _ q3) n
    have hnR := get_described (describeGroups_both _ r3) n
    have hgn := hgf n
    have hmR : ∀ g, find s3.groups n = some g → ∀ i ∈ ord g.members, ∃ o, s3.entry i = some o := fun g hg i hi => hall n g hg i ((o' _).mem_iff.1 hi)
    have hmQ : ∀ g, find Q.st.groups n = some g → ∀ i ∈ ordQ g.members, ∃ o, Q.st.entry i = some o := fun g hg i hi => (hQ.members n g hg).2 i ((oQ _).mem_iff.1 hi)
    rcases hnP with ⟨fp, ap⟩ | ⟨gp, dgp, fp, ap, hdgp⟩
    · rw [fp] at hgn
      simp only at hgn
      rcases hnQ with ⟨fq, aq⟩ | ⟨gq, dgq, fq, aq, hdgq⟩
      · rcases hnR with ⟨fr, ar⟩ | ⟨gr, dgr, fr, ar, hdgr⟩
        · rw [ap, aq, ar]
          exact ⟨rfl, fun _ _ => rfl, .refl _⟩
        · rw [hgn, fq] at fr; cases fr
      · rcases hnR with ⟨fr, ar⟩ | ⟨gr, dgr, fr, ar, hdgr⟩
        · rw [hgn, fq] at fr; cases fr
        · have : gr = gq := by rw [hgn, fq] at fr; cases fr; rfl
          subst this
          rw [ap, aq, ar]
          have s1' := says_described (hmR _ fr) hdgr
          have s2' := says_described (hmQ _ fq) hdgq
          refine ⟨rfl, fun k hk => ?_, ?_⟩
          · show getKey? dgr k = getKey? dgq k
            rw [s1', s2']
            unfold groupSays
            rw [if_neg hk, if_neg hk]
          · show (listIn dgr kMembers).Perm (listIn dgq kMembers ++ [])
            rw [listIn_members s1', listIn_members s2', List.append_nil, ← map_pathVal gall (hmQ _ fq)]
            exact ((o' _).trans (oQ _).symm).map _
    · rw [fp] at hgn
      simp only at hgn
      have s3' := says_described (hmem n gp fp) hdgp
      rcases hnR with ⟨fr, ar⟩ | ⟨gr, dgr, fr, ar, hdgr⟩
      · rw [hgn] at fr; cases fr
      · have hgr : gr = gp.over ((find Q.st.groups n).getD .new) (f n) := by rw [hgn] at fr; cases fr; rfl
        have s1' := says_described (hmR _ fr) hdgr
        have hm0 : gr.members = ((find Q.st.groups n).getD .new).members ++ f n := by rw [hgr]; exact hover n gp fp
        have hfp : (f n).map (pathVal s3) = (ordP gp.members).map (pathVal P.st) := by
          rw [← hfmap n gp fp]
          refine map_pathVal (g2.trans g3) fun j hj => ?_
          obtain ⟨_, o, ho, _⟩ := hfm n gp fp j hj
          exact ⟨o, ho⟩
        rcases hnQ with ⟨fq, aq⟩ | ⟨gq, dgq, fq, aq, hdgq⟩
        · rw [ap, aq, ar]
          rw [fq] at hgr hm0
          refine ⟨rfl, fun k hk => ?_, ?_⟩
          · show getKey? dgr k = (getKey? dgp k).or none
            rw [s1', s3', Option.or_none, hgr]
            exact groupSays_new _ _ _ _ hk
          · show (listIn dgr kMembers).Perm ([] ++ listIn dgp kMembers)
            rw [listIn_members s1', listIn_members s3', ← hfp]
            refine ((o' _).map _).trans ?_
            rw [hm0]
            exact .refl _
        · have s2' := says_described (hmQ _ fq) hdgq
          rw [ap, aq, ar]
          rw [fq] at hgr hm0
          refine ⟨rfl, fun k hk => ?_, ?_⟩
          · show getKey? dgr k = (getKey? dgp k).or (getKey? dgq k)
            rw [s1', s3', s2', hgr]
            exact groupSays_over _ _ _ _ _ _ hk
          · show (listIn dgr kMembers).Perm (listIn dgq kMembers ++ listIn dgp kMembers)
            rw [listIn_members s1', listIn_members s2', listIn_members s3', ← hfp]
            refine ((o' _).map _).trans ?_
            rw [hm0]
            simp only [Option.getD_some, List.map_append]
            refine List.Perm.append_right _ ?_
            rw [← map_pathVal gall (hmQ _ fq)]
            exact (oQ _).symm.map _

end Verif.Args
