import Verif.Defaults.Ends
/-!
# Properties of `AddSchemaDefaults`
-/

namespace Verif.Defaults
open Verif Schema Loader

/-- What the loader that `AddSchemaDefaults` makes for a schema answers. -/
def known (p : Nat) (builtin : Bytes × Val) (base : List Layer) (s : Val) : Bytes → Out Val :=
  fun u => (getSchema p (localLayer builtin s :: base) u).2

/-- The schema that is used: the one given or, if that is a string, the one the loader has under it. -/
def Used (p : Nat) (builtin : Bytes × Val) (base : List Layer) (schema doc s : Val) : Prop :=
  theSchema (fun u => (getSchema p (⟨[builtin], none⟩ :: base) u).2) schema doc = .ok s

/-- Its references made absolute, the base being the empty address. -/
def absolute (s : Val) : Val := norm [] s

/-- Every map in the arguments is a map: no key is in it twice. -/
structure Proper (builtin : Bytes × Val) (base : List Layer) (schema doc : Val) : Prop where
  builtin : builtin.2.WF
  base : ∀ l ∈ base, GoodLayer l
  schema : schema.WF
  doc : doc.WF

theorem used_wf {p : Nat} {builtin : Bytes × Val} {base : List Layer} {schema doc s : Val} (h : Proper builtin base schema doc)
    (hu : Used p builtin base schema doc s) : s.WF := by
  have hg : GoodLoader fun u => (getSchema p (⟨[builtin], none⟩ :: base) u).2 := by
    refine getSchema_wf p _ fun l hl => ?_
    rcases List.mem_cons.1 hl with rfl | hl
    · refine ⟨fun k v hk => ?_, nofun⟩
      simp only [AMap.get] at hk
      split at hk
      · cases hk; exact h.builtin
      · cases hk
    · exact h.base l hl
  have hk : ∀ v : Val, v.WF → (Val.map [(Schema.kRef, v)]).WF := fun v hv => by
    simp [Val.WF, WFMap, AMap.Sorted, AMap.above, hv]
  have fin : ∀ v : Val, v.WF → (match v with
      | .str u => (fun u => (getSchema p (⟨[builtin], none⟩ :: base) u).2) u
      | s => .ok s) = .ok s → s.WF := by
    intro v hv hs
    cases v with
    | str u => exact hg u s hs
    | _ => cases hs; exact hv
  unfold Used theSchema at hu
  dsimp only at hu
  refine fin _ ?_ hu
  split
  · rename_i m
    split
    · rename_i v hv
      exact hk v (wf_get h.doc hv)
    · exact h.schema
  · exact h.schema

theorem run_cases {p : Nat} {builtin : Bytes × Val} {base : List Layer} {n : Nat} {schema doc : Val} {x : Val × Out Unit}
    (hp : Proper builtin base schema doc) (h : addSchemaDefaults p builtin base n schema doc = some x) :
    ((∀ s, ¬ Used p builtin base schema doc s) ∧ x.1 = doc ∧ x.2 ≠ .ok ()) ∨
    ∃ s, Used p builtin base schema doc s ∧ fillP (known p builtin base s) n (absolute s) doc [] = some x ∧
      GoodLoader (known p builtin base s) ∧ (absolute s).WF := by
  unfold addSchemaDefaults at h
  cases hs : theSchema (fun u => (getSchema p (⟨[builtin], none⟩ :: base) u).2) schema doc with
  | ok s =>
    rw [hs] at h
    dsimp only at h
    have hw := used_wf hp hs
    have hg : GoodLoader (known p builtin base s) := by
      refine getSchema_wf p _ fun l hl => ?_
      rcases List.mem_cons.1 hl with rfl | hl
      · exact local_good hp.builtin hw
      · exact hp.base l hl
    have hn : (absolute s).WF := norm_wf _ _ hw
    rw [resolve_nil] at h
    refine .inr ⟨s, hs, ?_, hg, hn⟩
    rw [← fill_eq hg n (absolute s) doc .root [] (means_root doc) (by simp [NoMaxIndex]) hp.doc hn]
    exact h
  | throw e => rw [hs] at h; cases h; exact .inl ⟨fun s hu => (by unfold Used at hu; rw [hs] at hu; cases hu), rfl, nofun⟩
  | ub => rw [hs] at h; cases h; exact .inl ⟨fun s hu => (by unfold Used at hu; rw [hs] at hu; cases hu), rfl, nofun⟩

theorem below_root {get : Bytes → Out Val} {s : Val} {p : VPath} {d : Val} (h : Below get s [] p d) : DefaultAt get s p d := by
  obtain ⟨r, rfl, h⟩ := h; exact h

theorem used_unique {p : Nat} {builtin : Bytes × Val} {base : List Layer} {schema doc s t : Val} (h : Used p builtin base schema doc s)
    (h' : Used p builtin base schema doc t) : s = t := by
  unfold Used at h h'; rw [h] at h'; cases h'; rfl

/-! ## What is there stays -/

/-- C66.  However the call ends, every value of the document other than null is still where it was: scalars unchanged,
lists as lists and maps as maps. -/
theorem defaults_keep {p : Nat} {builtin : Bytes × Val} {base : List Layer} {n : Nat} {schema doc doc' : Val} {o : Out Unit}
    (hp : Proper builtin base schema doc) (h : addSchemaDefaults p builtin base n schema doc = some (doc', o)) : Keeps doc doc' := by
  rcases run_cases hp h with ⟨_, h1, _⟩ | ⟨s, _, h1, _, _⟩
  · dsimp only at h1; rw [h1]; exact Keeps.refl doc
  · exact (fillP_steps _ n _ doc [] (open_root doc) _ h1).keeps

/-- C66.  The document stays well formed. -/
theorem defaults_proper {p : Nat} {builtin : Bytes × Val} {base : List Layer} {n : Nat} {schema doc doc' : Val} {o : Out Unit}
    (hp : Proper builtin base schema doc) (h : addSchemaDefaults p builtin base n schema doc = some (doc', o)) : doc'.WF := by
  rcases run_cases hp h with ⟨_, h1, _⟩ | ⟨s, _, h1, h2, h3⟩
  · dsimp only at h1; rw [h1]; exact hp.doc
  · exact steps_wf h2 h3 (fillP_steps _ n _ doc [] (open_root doc) _ h1) hp.doc

/-- C66.  The call fails only because of the schema, never because of the document: the schema is not known, or it or a
schema it leads to has a reference that leads nowhere or properties that are no map. -/
theorem defaults_fail {p : Nat} {builtin : Bytes × Val} {base : List Layer} {n : Nat} {schema doc doc' : Val} {o : Out Unit}
    (hp : Proper builtin base schema doc) (h : addSchemaDefaults p builtin base n schema doc = some (doc', o)) (ho : o ≠ .ok ()) :
    (∀ s, ¬ Used p builtin base schema doc s) ∨
    ∃ s t, Used p builtin base schema doc s ∧ Reaches (known p builtin base s) (absolute s) t ∧ Broken (known p builtin base s) t := by
  rcases run_cases hp h with ⟨h1, _, _⟩ | ⟨s, h1, h2, _, _⟩
  · exact .inl h1
  · obtain ⟨t, h3, h4⟩ := fillP_fails _ n _ doc [] _ (open_root doc) h2 ho
    exact .inr ⟨s, t, h1, h3, h4⟩

/-- C66.  A null of the document stays, or a default for its place is put there. -/
theorem null_kept {p : Nat} {builtin : Bytes × Val} {base : List Layer} {n : Nat} {schema doc doc' s : Val} {o : Out Unit}
    (hp : Proper builtin base schema doc) (hs : Used p builtin base schema doc s)
    (h : addSchemaDefaults p builtin base n schema doc = some (doc', o)) {q : VPath} (hq : getPath? doc q = some .null) :
    ∃ v, getPath? doc' q = some v ∧ (v = .null ∨ ∃ d, DefaultAt (known p builtin base s) (absolute s) q d ∧ Same d v) := by
  rcases run_cases hp h with ⟨h1, _, _⟩ | ⟨t, h1, h2, _, _⟩
  · exact absurd hs (h1 s)
  · cases used_unique hs h1
    exact ((fillP_steps _ n _ doc [] (open_root doc) _ h2).mono fun _ _ => below_root).null hq

/-! ## Only defaults are added -/

/-- C67.  Everything in the document afterwards was there before, is a default of the schema at its place (or part of
one), is a container on the way to one, or is a null before such a place in a list. -/
theorem defaults_only {p : Nat} {builtin : Bytes × Val} {base : List Layer} {n : Nat} {schema doc doc' s : Val} {o : Out Unit}
    (hp : Proper builtin base schema doc) (hs : Used p builtin base schema doc s)
    (h : addSchemaDefaults p builtin base n schema doc = some (doc', o)) :
    ∀ q v, getPath? doc' q = some v → Origin (DefaultAt (known p builtin base s) (absolute s)) doc q v := by
  rcases run_cases hp h with ⟨h1, _, _⟩ | ⟨t, h1, h2, _, _⟩
  · exact absurd hs (h1 s)
  · cases used_unique hs h1
    exact ((fillP_steps _ n _ doc [] (open_root doc) _ h2).mono fun _ _ => below_root).origin

/-- C67.  A schema without defaults changes nothing. -/
theorem no_defaults {p : Nat} {builtin : Bytes × Val} {base : List Layer} {n : Nat} {schema doc doc' s : Val} {o : Out Unit}
    (hp : Proper builtin base schema doc) (hs : Used p builtin base schema doc s)
    (hd : ∀ q d, ¬ DefaultAt (known p builtin base s) (absolute s) q d)
    (h : addSchemaDefaults p builtin base n schema doc = some (doc', o)) : doc' = doc := by
  rcases run_cases hp h with ⟨_, h1, _⟩ | ⟨t, h1, h2, _, _⟩
  · exact h1
  · cases used_unique hs h1
    cases fillP_steps _ n _ doc [] (open_root doc) _ h2 with
    | refl => rfl
    | step _ _ _ h3 _ => exact absurd (below_root h3) (hd _ _)

/-! ## Defaults are filled in -/

/-- C68.  After a call that ended normally, a place that the schema gives defaults other than null for, and that is
reached through keys only, has a value other than null, unless something above it stands in the way. -/
theorem defaults_filled {p : Nat} {builtin : Bytes × Val} {base : List Layer} {n : Nat} {schema doc doc' s : Val}
    (hp : Proper builtin base schema doc) (hs : Used p builtin base schema doc s)
    (h : addSchemaDefaults p builtin base n schema doc = some (doc', .ok ())) {q : VPath} {d : Val}
    (hd : DefaultAt (known p builtin base s) (absolute s) q d)
    (hn : ∀ d', DefaultAt (known p builtin base s) (absolute s) q d' → d' ≠ .null) (hq : KeysOnly q) :
    Present doc' q ∨ Blocked (known p builtin base s) (absolute s) doc doc' q := by
  rcases run_cases hp h with ⟨h1, _, _⟩ | ⟨t, h1, h2, _, _⟩
  · exact absurd hs (h1 s)
  · cases used_unique hs h1
    exact fillP_fills _ n _ doc doc' [] q d (open_root doc) h2 hd hn (by simp [KeysOnly]) hq doc' (Keeps.refl doc')

/-- C68.  If the place is missing, all that is above it are maps, the schema has just one default for it, none for a
place above it and none for list elements on the way, then the default is there afterwards. -/
theorem default_there {p : Nat} {builtin : Bytes × Val} {base : List Layer} {n : Nat} {schema doc doc' s : Val}
    (hp : Proper builtin base schema doc) (hs : Used p builtin base schema doc s)
    (h : addSchemaDefaults p builtin base n schema doc = some (doc', .ok ())) {q : VPath} {d : Val}
    (hd : DefaultAt (known p builtin base s) (absolute s) q d) (hn : Scalar d) (hq : KeysOnly q)
    (hm : getPath? doc q = none) (hab : ∀ r v, r <+: q → getPath? doc r = some v → v.ty = .map)
    (hone : ∀ r d', DefaultAt (known p builtin base s) (absolute s) r d' → r <+: q → r = q ∧ d' = d)
    (hlist : ∀ r i t d', DefaultAt (known p builtin base s) (absolute s) (r ++ .index i :: t) d' → ¬ r <+: q)
    (hbelow : ∀ e t d', ¬ DefaultAt (known p builtin base s) (absolute s) (q ++ e :: t) d') :
    getPath? doc' q = some d := by
  have hall : ∀ r v, r <+: q → getPath? doc' r = some v → v.ty = .map ∨ (r = q ∧ Same d v) := by
    intro r v hr hv
    cases defaults_only hp hs h r v hv with
    | old h1 h2 => left; rw [h2.1]; exact hab r _ hr h1
    | @inside p' r' d' w h1 h2 h3 h4 =>
      have h5 : p' <+: q := by rw [h2] at hr; exact (List.prefix_append _ _).trans hr
      obtain ⟨rfl, rfl⟩ := hone _ _ h1 h5
      rw [h2] at hr
      have := hr.length_le
      simp only [List.length_append] at this
      have : r' = [] := List.eq_nil_of_length_eq_zero (by omega)
      subst this
      cases h3
      exact .inr ⟨by rw [h2]; simp, h4⟩
    | @way e t d' h1 h2 =>
      cases e with
      | key k => exact .inl h2
      | index i => exact absurd hr (hlist r i t d' h1)
    | @padding pre t d' i j h1 h2 _ _ =>
      rw [h2] at hr
      exact absurd ((List.prefix_append _ _).trans hr) (hlist pre i t d' h1)
  have hnn : ∀ d', DefaultAt (known p builtin base s) (absolute s) q d' → d' ≠ .null := by
    intro d' hd'
    rw [(hone q d' hd' (List.prefix_refl q)).2]
    rintro rfl
    exact hn.1 rfl
  have hpres : Present doc' q := by
    rcases defaults_filled hp hs h hd hnn hq with h1 | ⟨r, h1, h2, h3⟩
    · exact h1
    · exfalso
      rcases h3 with ⟨v, h3, h4, _⟩ | h3 | ⟨r', d', h3, h4⟩
      · rcases hall r v h1 h3 with h5 | ⟨h5, _⟩
        · exact h4 h5
        · exact h2 h5
      · cases hab r _ h1 h3
      · obtain ⟨h5, _⟩ := hone r' d' h4 (h3.trans h1)
        have e1 := h3.length_le
        have e2 := h1.length_le
        rw [h5] at e1
        exact h2 (h1.eq_of_length (by omega))
  obtain ⟨v, hv, _⟩ := hpres
  cases defaults_only hp hs h q v hv with
  | old h1 _ => rw [hm] at h1; cases h1
  | @inside p' r' d' w h1 h2 h3 h4 =>
    obtain ⟨rfl, rfl⟩ := hone _ _ h1 (by rw [h2]; exact List.prefix_append _ _)
    have : r' = [] := by
      have := congrArg List.length h2
      simp only [List.length_append] at this
      exact List.eq_nil_of_length_eq_zero (by omega)
    subst this
    cases h3
    rw [hv, h4.2 hn.2.1 hn.2.2]
  | way h1 _ => exact absurd h1 (hbelow _ _ _)
  | @padding pre t d' i j h1 h2 _ _ => exact absurd (by rw [h2]; exact List.prefix_append _ _) (hlist pre i t d' h1)

/-! ## A second call -/

/-- C69 (partial: for schemas all of whose defaults are scalars other than null; see `second_call_false`).  A second
call, however it ends, leaves the document as the first one left it. -/
theorem second_call_partial {p : Nat} {builtin : Bytes × Val} {base : List Layer} {n n' : Nat} {schema doc doc' doc'' s : Val} {o : Out Unit}
    (hp : Proper builtin base schema doc) (hsch : schema ≠ .null) (hs : Used p builtin base schema doc s)
    (hd : ∀ q d, DefaultAt (known p builtin base s) (absolute s) q d → Scalar d)
    (h : addSchemaDefaults p builtin base n schema doc = some (doc', .ok ()))
    (h' : addSchemaDefaults p builtin base n' schema doc' = some (doc'', o)) : doc'' = doc' := by
  have hp' : Proper builtin base schema doc' := { hp with doc := defaults_proper hp h }
  have hs' : Used p builtin base schema doc' s := by
    unfold Used theSchema at hs ⊢
    cases schema <;> first | exact hs | exact absurd rfl hsch
  rcases run_cases hp' h' with ⟨h1, h2, _⟩ | ⟨t, h1, h2, _, _⟩
  · exact h2
  · cases used_unique hs' h1
    rcases run_cases hp h with ⟨h3, _, _⟩ | ⟨t, h3, h4, _, _⟩
    · exact absurd hs (h3 s)
    · cases used_unique hs h3
      exact fillP_stable _ n _ doc doc' [] (open_root doc) hd h4 doc' (Kept.refl doc') n' (doc'', o) h2

/-! ## Whether the call ends -/

theorem refFree_set {m : List (Bytes × Val)} {k : Bytes} {v : Val} (hm : refFreeMap m = true) (hk : k ≠ Schema.kRef) (hv : refFree v = true) :
    refFreeMap (AMap.set m k v) = true := by
  induction m with
  | nil => simp [AMap.set, refFreeMap, hk, hv]
  | cons x m ih =>
    obtain ⟨k', v'⟩ := x
    simp only [refFreeMap, Bool.and_eq_true, bne_iff_ne, ne_eq] at hm
    simp only [AMap.set]
    split
    · simp [refFreeMap, hk, hv, hm]
    · split
      · simp [refFreeMap, hk, hv, hm]
      · simp [refFreeMap, hm, ih hm.2]

theorem strAt_refFree {m : List (Bytes × Val)} (h : refFreeMap m = true) : strAt m Loader.kRef = none := by
  cases hs : strAt m Loader.kRef with
  | none => rfl
  | some u => exact absurd rfl (mem_map (get_mem (strAt_get hs)) h).2.2

mutual
theorem refFree_norm (uri : Bytes) : ∀ v : Val, refFree v = true → refFree (norm uri v) = true
  | .map m, h => by
    have hm : refFreeMap m = true := by simpa [refFree] using h
    rw [norm, strAt_refFree hm]
    dsimp only
    rw [refFree]
    split
    · exact refFree_set (refFree_normMap _ m hm) (by decide) rfl
    · exact refFree_normMap _ m hm
  | .list xs, h => by
    rw [norm, refFree]
    exact refFree_normList uri xs (by simpa [refFree] using h)
  | .null, _ => rfl
  | .bool _, _ => rfl
  | .int _, _ => rfl
  | .uint _, _ => rfl
  | .flt _, _ => rfl
  | .str _, _ => rfl
  | .blob _, _ => rfl
theorem refFree_normMap (uri : Bytes) : ∀ m : List (Bytes × Val), refFreeMap m = true → refFreeMap (normMap uri m) = true
  | [], _ => rfl
  | (k, v) :: m, h => by
    simp only [refFreeMap, Bool.and_eq_true] at h
    simp only [normMap, refFreeMap, Bool.and_eq_true]
    refine ⟨⟨h.1.1, ?_⟩, refFree_normMap uri m h.2⟩
    split
    · exact h.1.2
    · exact refFree_norm uri v h.1.2
theorem refFree_normList (uri : Bytes) : ∀ xs : List Val, refFreeList xs = true → refFreeList (normList uri xs) = true
  | [], _ => rfl
  | x :: xs, h => by
    simp only [refFreeList, Bool.and_eq_true] at h
    simp only [normList, refFreeList, Bool.and_eq_true]
    exact ⟨refFree_norm uri x h.1, refFree_normList uri xs h.2⟩
end

/-- C70.  The result does not depend on the number of nested calls allowed, once it is large enough. -/
theorem call_depth {p : Nat} {builtin : Bytes × Val} {base : List Layer} {n k : Nat} (hk : n ≤ k) {schema doc : Val} {x : Val × Out Unit}
    (h : addSchemaDefaults p builtin base n schema doc = some x) : addSchemaDefaults p builtin base k schema doc = some x := by
  unfold addSchemaDefaults at h ⊢
  split
  · rename_i s hs
    rw [hs] at h
    exact fill_mono hk x h
  · rename_i e hs
    rw [hs] at h
    exact h
  · rename_i hs
    rw [hs] at h
    exact h

/-- C70.  With a schema that has no `$ref` in it the call ends. -/
theorem call_ends (p : Nat) (builtin : Bytes × Val) (base : List Layer) {schema doc s : Val} (hs : Used p builtin base schema doc s)
    (hr : refFree s = true) : ∃ x, ∀ n, height (absolute s) < n → addSchemaDefaults p builtin base n schema doc = some x := by
  have hh : ∀ n, addSchemaDefaults p builtin base n schema doc = fill (known p builtin base s) n (absolute s) doc .root := by
    intro n
    unfold addSchemaDefaults
    unfold Used at hs
    rw [hs]
    dsimp only
    rw [resolve_nil]
    rfl
  cases hx : fill (known p builtin base s) (height (absolute s) + 1) (absolute s) doc .root with
  | none => exact absurd hx (fill_ends _ _ _ _ _ (by omega) (refFree_norm _ s hr))
  | some x => exact ⟨x, fun n hn => by rw [hh]; exact fill_mono (by omega) x hx⟩

end Verif.Defaults
