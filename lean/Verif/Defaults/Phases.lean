import Verif.Defaults.Refs
/-!
# A run taken apart
-/

namespace Verif.Defaults
open Verif Schema

theorem andThen_ok {r : Run} {f : Val → Run} {x : Val} (h : andThen r f = some (x, .ok ())) :
    ∃ d, r = some (d, .ok ()) ∧ f d = some (x, .ok ()) := by
  rcases andThen_some h with h | ⟨_, h⟩
  · exact h
  · exact absurd rfl h

theorem forEach_append {α : Type} {f : Val → α → Run} (as bs : List α) (doc : Val) :
    forEach f doc (as ++ bs) = andThen (forEach f doc as) fun d => forEach f d bs := by
  induction as generalizing doc with
  | nil => rfl
  | cons a as ih =>
    rw [List.cons_append, forEach, forEach]
    cases hf : f doc a with
    | none => rfl
    | some y =>
      obtain ⟨d, o⟩ := y
      cases o with
      | ok u => exact ih d
      | throw e => rfl
      | ub => rfl

theorem forEach_mem {α : Type} {f : Val → α → Run} {as : List α} {doc x : Val} {a : α} (h : forEach f doc as = some (x, .ok ()))
    (ha : a ∈ as) : ∃ as1 as2 d d', as = as1 ++ a :: as2 ∧ forEach f doc as1 = some (d, .ok ()) ∧ f d a = some (d', .ok ()) ∧
      forEach f d' as2 = some (x, .ok ()) := by
  obtain ⟨as1, as2, rfl⟩ := List.append_of_mem ha
  rw [forEach_append] at h
  rcases andThen_some h with ⟨d, h1, h2⟩ | ⟨_, h⟩
  · rw [forEach] at h2
    rcases andThen_some h2 with ⟨d', h3, h4⟩ | ⟨_, h⟩
    · exact ⟨as1, as2, d, d', rfl, h1, h3, h4⟩
    · exact absurd rfl h
  · exact absurd rfl h

theorem forEach_stopped {α : Type} {f : Val → α → Run} {as : List α} {doc : Val} {x : Val × Out Unit} (h : forEach f doc as = some x)
    (hx : x.2 ≠ .ok ()) : ∃ as1 a as2 d, as = as1 ++ a :: as2 ∧ forEach f doc as1 = some (d, .ok ()) ∧ f d a = some x := by
  induction as generalizing doc with
  | nil => cases h; exact absurd rfl hx
  | cons a as ih =>
    rw [forEach] at h
    rcases andThen_some h with ⟨d, h1, h2⟩ | ⟨h1, _⟩
    · obtain ⟨as1, b, as2, d', rfl, h3, h4⟩ := ih h2
      refine ⟨a :: as1, b, as2, d', rfl, ?_, h4⟩
      rw [forEach, h1]
      exact h3
    · exact ⟨[], a, as, doc, rfl, rfl, h1⟩

theorem strAt_eq {m : List (Bytes × Val)} {k u : Bytes} (h : AMap.get m k = some (.str u)) : Loader.strAt m k = some u := by
  simp [Loader.strAt, h]

/-- In the course of a run from `doc` to `doc'`, a run with the schema `t` at the place `q` ended normally. -/
def Sub (get : Bytes → Out Val) (n : Nat) (D : VPath → Val → Prop) (t : Val) (q : VPath) (doc doc' : Val) : Prop :=
  ∃ a b, Steps D doc a ∧ Open a q ∧ fillP get n t a q = some (b, .ok ()) ∧ Steps D b doc'

theorem loop_sub {α : Type} {get : Bytes → Out Val} {n : Nat} {m : List (Bytes × Val)} {p : VPath} {t : Ty} {el : α → PathElem}
    {sc : α → Val} {as : List α} (hel : ∀ a ∈ as, (el a).containerTy = t ∧ el a ≠ .index 0xFFFFFFFF)
    (hsc : ∀ a ∈ as, ∀ r d, DefaultAt get (sc a) r d → DefaultAt get (.map m) (el a :: r) d)
    {doc doc' : Val} (ho : Open doc p) (ht : missingOr t (getPath? doc p) = true)
    (h : forEach (fun d a => fillP get n (sc a) d (p ++ [el a])) doc as = some (doc', .ok ())) :
    ∀ a ∈ as, Sub get n (Below get (.map m) p) (sc a) (p ++ [el a]) doc doc' := by
  intro a ha
  obtain ⟨as1, as2, d, d', rfl, h1, h2, h3⟩ := forEach_mem h ha
  have ls := fun (bs : List α) (hb : ∀ b ∈ bs, b ∈ as1 ++ a :: as2) (doc : Val) => loop_steps (doc := doc) (f := fun d a => fillP get n (sc a) d (p ++ [el a]))
    (fun b hb' => hel b (hb b hb')) (fun b hb' => hsc b (hb b hb')) (fun b _ d ho x hx => fillP_steps get n (sc b) d _ ho x hx)
  obtain ⟨s1, o1, t1⟩ := ls as1 (fun b hb => List.mem_append_left _ hb) _ ho ht _ h1
  have hela := hel a (by simp)
  obtain ⟨s2, o2, t2⟩ := ls [a] (fun b hb => by simp at hb; simp [hb]) _ o1 t1 (d', .ok ()) (by rw [forEach, h2]; rfl)
  obtain ⟨s3, _, _⟩ := ls as2 (fun b hb => by simp [hb]) _ o2 t2 _ h3
  exact ⟨d, d', s1, open_below o1 (by rw [hela.1]; exact t1) hela.2, h2, s3⟩

theorem ref_sub {get : Bytes → Out Val} {n : Nat} {m : List (Bytes × Val)} {doc doc1 : Val} {p : VPath} (ho : Open doc p)
    (h : (atRef get m doc fun s => fillP get n s doc p) = some (doc1, .ok ())) :
    Steps (Below get (.map m) p) doc doc1 ∧
    ∀ u t, AMap.get m kRef = some (.str u) → get u = .ok t → fillP get n t doc p = some (doc1, .ok ()) := by
  rcases atRef_cases get m doc with ⟨h0, e⟩ | ⟨u, s, hr, hu, e⟩ | ⟨u, o, _, _, h0, e⟩ <;> rw [e] at h
  · cases h
    exact ⟨.refl, fun u t hr _ => by rw [strAt_eq hr] at h0; cases h0⟩
  · refine ⟨(fillP_steps get n s doc p ho _ h).mono (below_same fun _ _ => .ref hr hu), fun u' t hr' hu' => ?_⟩
    rw [hr] at hr'
    cases hr'
    rw [hu] at hu'
    cases hu'
    exact h
  · cases h
    exact absurd rfl h0

theorem props_sub {get : Bytes → Out Val} {n : Nat} {m : List (Bytes × Val)} {doc doc' : Val} {p : VPath} (ho : Open doc p)
    (h : (atProperties m doc (getPath? doc p) fun doc x => fillP get n x.2 doc (p ++ [.key x.1])) = some (doc', .ok ())) :
    Steps (Below get (.map m) p) doc doc' ∧
    (missingOr .map (getPath? doc p) = true → ∀ ps x, AMap.get m kProperties = some (.map ps) → x ∈ ps →
      Sub get n (Below get (.map m) p) x.2 (p ++ [.key x.1]) doc doc') := by
  rcases atProperties_cases m doc (getPath? doc p) with ⟨ps, h1, h2, e⟩ | ⟨h0, e⟩ | ⟨_, _, _, _, _, e⟩ <;> rw [e] at h
  · refine ⟨(loop_steps (el := fun a => .key a.1) (sc := fun a => a.2) (fun a _ => ⟨rfl, by simp⟩)
      (fun a ha r d hd => .property h2 ha hd) (fun a ha d ho x hx => fillP_steps get n a.2 d _ ho x hx) ho h1 _ h).1, ?_⟩
    intro _ ps' x hp hx
    rw [h2] at hp
    cases hp
    exact loop_sub (el := fun a : Bytes × Val => .key a.1) (sc := fun a => a.2) (fun a _ => ⟨rfl, by simp⟩)
      (fun a ha r d hd => .property h2 ha hd) ho h1 h x hx
  · cases h
    refine ⟨.refl, fun h1 ps x hp _ => ?_⟩
    rcases h0 with h0 | h0
    · rw [h0] at h1; cases h1
    · exact absurd hp (h0 ps)
  · cases h

theorem items_sub {get : Bytes → Out Val} {n : Nat} {m : List (Bytes × Val)} {doc doc' : Val} {p : VPath} (ho : Open doc p)
    (h : (atItems m doc (getPath? doc p) fun doc s => fillP get n s.1 doc (p ++ [.index s.2])) = some (doc', .ok ())) :
    Steps (Below get (.map m) p) doc doc' ∧
    (missingOr .list (getPath? doc p) = true → ∀ v x, AMap.get m kItems = some v → x ∈ itemsOf v →
      Sub get n (Below get (.map m) p) x.1 (p ++ [.index x.2]) doc doc') := by
  rcases atItems_cases m doc (getPath? doc p) with ⟨v, h1, h2, e⟩ | ⟨h0, e⟩ <;> rw [e] at h
  · refine ⟨(loop_steps (el := fun a => .index a.2) (sc := fun a => a.1) (fun a ha => ⟨rfl, ofItems_noMax ha⟩)
      (item_default h2) (fun a ha d ho x hx => fillP_steps get n a.1 d _ ho x hx) ho h1 _ h).1, ?_⟩
    intro _ v' x hv hx
    rw [h2] at hv
    cases hv
    exact loop_sub (el := fun a : Val × UInt32 => .index a.2) (sc := fun a => a.1) (fun a ha => ⟨rfl, ofItems_noMax ha⟩)
      (item_default h2) ho h1 h x hx
  · cases h
    refine ⟨.refl, fun h1 v x hv _ => ?_⟩
    rcases h0 with h0 | h0
    · rw [h0] at h1; cases h1
    · rw [h0] at hv; cases hv

theorem members_steps {get : Bytes → Out Val} {n : Nat} {m : List (Bytes × Val)} {p : VPath} {ts : List Val}
    (hm : ∀ t ∈ ts, t ∈ membersOf m kAllOf ++ membersOf m kOneOf ++ membersOf m kAnyOf) {doc : Val} (ho : Open doc p) :
    ∀ x, forEach (fun doc s => fillP get n s doc p) doc ts = some x → Steps (Below get (.map m) p) doc x.1 :=
  forEach_rel (R := Steps (Below get (.map m) p)) (fun _ => .refl) Steps.trans (b := doc)
    (fun y hy d hd x hx => (fillP_steps get n y d p (open_steps hd ho) x hx).mono
      (below_same fun _ _ => member_combining (hm y hy))) doc .refl

theorem members_sub {get : Bytes → Out Val} {n : Nat} {m : List (Bytes × Val)} {doc doc' : Val} {p : VPath} (ho : Open doc p)
    (h : forEach (fun doc s => fillP get n s doc p) doc (membersOf m kAllOf ++ membersOf m kOneOf ++ membersOf m kAnyOf) =
      some (doc', .ok ())) :
    ∀ t ∈ membersOf m kAllOf ++ membersOf m kOneOf ++ membersOf m kAnyOf, Sub get n (Below get (.map m) p) t p doc doc' := by
  intro t ht
  obtain ⟨as1, as2, d, d', e, h1, h2, h3⟩ := forEach_mem h ht
  have s1 := members_steps (m := m) (fun b hb => by rw [e]; exact List.mem_append_left _ hb) ho _ h1
  have o1 := open_steps s1 ho
  have s2 := (fillP_steps get n t d p o1 _ h2).mono (below_same fun _ _ => member_combining ht)
  have s3 := members_steps (m := m) (fun b hb => by rw [e]; simp [hb]) (open_steps s2 o1) _ h3
  exact ⟨d, d', s1, o1, h2, s3⟩

/-- What a run that ends normally did. -/
theorem phases {get : Bytes → Out Val} {n : Nat} {m : List (Bytes × Val)} {doc doc' : Val} {p : VPath} (ho : Open doc p)
    (h : fillP get (n + 1) (.map m) doc p = some (doc', .ok ())) :
    ∃ doc1, Steps (Below get (.map m) p) doc doc1 ∧ Open doc1 p ∧ Steps (Below get (.map m) p) doc1 doc' ∧
    (∀ u t, AMap.get m kRef = some (.str u) → get u = .ok t → fillP get n t doc p = some (doc1, .ok ())) ∧
    ((∃ d, missingOrNull (getPath? doc1 p) = true ∧ AMap.get m kDefault = some d ∧ setPath doc1 p d = (doc', none)) ∨
     (ownDefault m (getPath? doc1 p) = none ∧ ∃ doc2 doc3, Steps (Below get (.map m) p) doc1 doc2 ∧
        Steps (Below get (.map m) p) doc2 doc3 ∧ Steps (Below get (.map m) p) doc3 doc' ∧
        (missingOr .map (getPath? doc1 p) = true → ∀ ps x, AMap.get m kProperties = some (.map ps) → x ∈ ps →
          Sub get n (Below get (.map m) p) x.2 (p ++ [.key x.1]) doc1 doc2) ∧
        (missingOr .list (getPath? doc2 p) = true → ∀ v x, AMap.get m kItems = some v → x ∈ itemsOf v →
          Sub get n (Below get (.map m) p) x.1 (p ++ [.index x.2]) doc2 doc3) ∧
        ∀ t ∈ membersOf m kAllOf ++ membersOf m kOneOf ++ membersOf m kAnyOf,
          Sub get n (Below get (.map m) p) t p doc3 doc')) := by
  rw [fillP] at h
  obtain ⟨doc1, h1, h⟩ := andThen_ok h
  obtain ⟨s1, r1⟩ := ref_sub ho h1
  have o1 := open_steps s1 ho
  refine ⟨doc1, s1, o1, ?_⟩
  cases hd : ownDefault m (getPath? doc1 p) with
  | some d =>
    rw [hd] at h
    obtain ⟨h2, h3⟩ := ownDefault_some hd
    refine ⟨wrote_steps (free_iff.1 h2) o1 h3 _ h, r1, .inl ⟨d, h2, h3, ?_⟩⟩
    have h4 := o1.stored d
    dsimp only at h
    cases hs : setPath doc1 p d with
    | mk c er =>
      rw [hs] at h h4
      dsimp only at h4
      subst h4
      cases h
      rfl
  | none =>
    rw [hd] at h
    dsimp only at h
    obtain ⟨doc2, h2, h⟩ := andThen_ok h
    obtain ⟨doc3, h3, h⟩ := andThen_ok h
    obtain ⟨s2, r2⟩ := props_sub o1 h2
    have o2 := open_steps s2 o1
    obtain ⟨s3, r3⟩ := items_sub o2 h3
    have o3 := open_steps s3 o2
    have s4 := members_steps (m := m) (fun _ h => h) o3 _ h
    exact ⟨(s2.trans s3).trans s4, r1, .inr ⟨rfl, doc2, doc3, s2, s3, s4, r2, r3, members_sub o3 h⟩⟩

end Verif.Defaults
