import Verif.Defaults.Phases
/-!
# What a run fills in, when it fails, and what a second run does
-/

namespace Verif.Defaults
open Verif Schema

theorem keysOnly_append {p q : VPath} : KeysOnly (p ++ q) ↔ KeysOnly p ∧ KeysOnly q := by
  simp only [KeysOnly, List.mem_append]
  exact ⟨fun h => ⟨fun e he => h e (.inl he), fun e he => h e (.inr he)⟩, fun h e he => he.elim (h.1 e) (h.2 e)⟩

/-- A null in the course of a run, at a place reached through keys. -/
theorem null_origin {get : Bytes → Out Val} {s doc a : Val} {P q : VPath} (st : Steps (Below get s P) doc a) (hk : KeysOnly (P ++ q))
    (hn : getPath? a (P ++ q) = some .null) : getPath? doc (P ++ q) = some .null ∨ ∃ q' d', q' <+: q ∧ DefaultAt get s q' d' := by
  cases st.origin _ _ hn with
  | @old v h1 h2 => exact .inl (by rw [h1, ty_null (h2.1.symm.trans rfl)])
  | @inside p r d w h1 h2 _ _ =>
    obtain ⟨r', rfl, hd⟩ := h1
    rw [List.append_assoc] at h2
    exact .inr ⟨r', d, ⟨r, (List.append_cancel_left h2).symm⟩, hd⟩
  | @way e _ _ _ h => cases e <;> cases h
  | padding _ h _ _ =>
    rw [h] at hk
    obtain ⟨k, hk⟩ := hk _ (List.mem_append_right _ (List.mem_singleton.2 rfl))
    cases hk

/-- `Blocked` for the part of the path below `P`. -/
def BlockedAt (get : Bytes → Out Val) (s doc fin : Val) (P r : VPath) : Prop :=
  ∃ q, q <+: r ∧ q ≠ r ∧
    ((∃ v, getPath? fin (P ++ q) = some v ∧ v.ty ≠ .map ∧ v ≠ .null) ∨ getPath? doc (P ++ q) = some .null ∨
     ∃ q' d', q' <+: q ∧ DefaultAt get s q' d')

theorem Keeps.present {a b v : Val} {p : VPath} (h : Keeps a b) (hv : getPath? a p = some v) (hn : v ≠ .null) :
    ∃ v', getPath? b p = some v' ∧ Same v v' := by
  obtain ⟨v', h1, h2⟩ := h p v hv
  exact ⟨v', h1, h2.resolve_left hn⟩

theorem Same.ne_null {v v' : Val} (h : Same v v') (hn : v ≠ .null) : v' ≠ .null := by
  rintro rfl
  exact hn (ty_null h.1.symm)

theorem present_keeps {a b : Val} {p : VPath} (h : Keeps a b) (hp : Present a p) : Present b p := by
  obtain ⟨v, h1, h2⟩ := hp
  obtain ⟨v', h3, h4⟩ := h.present h1 h2
  exact ⟨v', h3, h4.ne_null h2⟩

/-- A run of a part of the schema at the same place, started later. -/
theorem blocked_same {get : Bytes → Out Val} {s t doc a fin : Val} {P r : VPath} (hd : ∀ p d, DefaultAt get t p d → DefaultAt get s p d)
    (st : Steps (Below get s P) doc a) (hP : KeysOnly P) (hr : KeysOnly r) (h : BlockedAt get t a fin P r) :
    BlockedAt get s doc fin P r := by
  obtain ⟨q, h1, h2, h3⟩ := h
  have hq : KeysOnly q := by obtain ⟨x, rfl⟩ := h1; exact (keysOnly_append.1 hr).1
  refine ⟨q, h1, h2, ?_⟩
  rcases h3 with h3 | h3 | ⟨q', d', h3, h4⟩
  · exact .inl h3
  · exact .inr (null_origin st (keysOnly_append.2 ⟨hP, hq⟩) h3)
  · exact .inr (.inr ⟨q', d', h3, hd _ _ h4⟩)

/-- The same one key below. -/
theorem blocked_key {get : Bytes → Out Val} {s t doc a fin : Val} {P r : VPath} {k : Bytes}
    (hd : ∀ p d, DefaultAt get t p d → DefaultAt get s (.key k :: p) d) (st : Steps (Below get s P) doc a) (hP : KeysOnly P)
    (hr : KeysOnly r) (h : BlockedAt get t a fin (P ++ [.key k]) r) : BlockedAt get s doc fin P (.key k :: r) := by
  obtain ⟨q, h1, h2, h3⟩ := h
  have hq : KeysOnly q := by obtain ⟨x, rfl⟩ := h1; exact (keysOnly_append.1 hr).1
  have hkq : KeysOnly (.key k :: q) := by
    intro e he
    rcases List.mem_cons.1 he with rfl | he
    · exact ⟨k, rfl⟩
    · exact hq e he
  refine ⟨.key k :: q, List.cons_prefix_cons.2 ⟨rfl, h1⟩, by simpa using h2, ?_⟩
  simp only [List.append_assoc, List.singleton_append] at h3
  rcases h3 with h3 | h3 | ⟨q', d', h3, h4⟩
  · exact .inl h3
  · exact .inr (null_origin st (keysOnly_append.2 ⟨hP, hkq⟩) h3)
  · exact .inr (.inr ⟨.key k :: q', d', List.cons_prefix_cons.2 ⟨rfl, h3⟩, hd _ _ h4⟩)

theorem fillP_fills (get : Bytes → Out Val) (n : Nat) : ∀ (s doc doc' : Val) (P r : VPath) (d : Val), Open doc P →
    fillP get n s doc P = some (doc', .ok ()) → DefaultAt get s r d → (∀ d', DefaultAt get s r d' → d' ≠ .null) → KeysOnly P → KeysOnly r →
    ∀ fin, Keeps doc' fin → Present fin (P ++ r) ∨ BlockedAt get s doc fin P r := by
  induction n with
  | zero => intro s doc doc' P r d _ h; cases h
  | succ n ih =>
    intro s doc doc' P r d ho h hd hn hP hr fin hfin
    obtain ⟨m, rfl⟩ : ∃ m, s = .map m := by cases hd <;> exact ⟨_, rfl⟩
    obtain ⟨doc1, s1, o1, s1', href, hrest⟩ := phases ho h
    have hk1 : Keeps doc1 fin := s1'.keeps.trans hfin
    -- a default for this place hides everything below it
    have hide : ∀ d', AMap.get m kDefault = some d' → r ≠ [] → BlockedAt get (.map m) doc fin P r := fun d' hd' hne =>
      ⟨[], List.nil_prefix, fun e => hne e.symm, .inr (.inr ⟨[], d', List.nil_prefix, .own hd'⟩)⟩
    -- what is at this place, if anything, is a value other than null for good, or hides everything below it
    cases hd with
    | own hd =>
      left
      rw [List.append_nil]
      rcases hrest with ⟨d', _, h2, h3⟩ | ⟨h2, _⟩
      · rw [hd] at h2
        cases h2
        have := setPath_below h3 []
        rw [List.append_nil] at this
        exact present_keeps hfin ⟨d, this, hn d (.own hd)⟩
      · refine present_keeps hk1 ?_
        rcases ownDefault_none h2 with h2 | h2
        · cases hv : getPath? doc1 P with
          | none => rw [hv] at h2; cases h2
          | some v => refine ⟨v, hv, ?_⟩; rintro rfl; rw [hv] at h2; cases h2
        · rw [hd] at h2; cases h2
    | ref hu hs hd =>
      have h1 := href _ _ hu hs
      rcases ih _ _ _ P r d ho h1 hd (fun d' h' => hn d' (.ref hu hs h')) hP hr fin hk1 with h | h
      · exact .inl h
      · exact .inr (blocked_same (fun _ _ => .ref hu hs) .refl hP hr h)
    | @property _ ps k t r d hp hx hd =>
      rcases hrest with ⟨d', _, h2, _⟩ | ⟨hown, doc2, doc3, s2, s3, s4, h2, _, _⟩
      · exact .inr (hide d' h2 (by simp))
      by_cases ht : missingOr .map (getPath? doc1 P) = true
      · obtain ⟨a, b, t1, t2, t3, t4⟩ := h2 ht ps (k, t) hp hx
        have hr' : KeysOnly r := fun e he => hr e (List.mem_cons_of_mem _ he)
        have hPk : KeysOnly (P ++ [.key k]) := keysOnly_append.2 ⟨hP, fun e he => ⟨k, List.mem_singleton.1 he⟩⟩
        have hkb : Keeps b fin := t4.keeps.trans (s3.keeps.trans (s4.keeps.trans hfin))
        rcases ih t a b (P ++ [.key k]) r d t2 t3 hd (fun d' h' => hn d' (.property hp hx h')) hPk hr' fin hkb with h | h
        · left; simpa using h
        · exact .inr (blocked_key (fun _ _ hd => .property hp hx hd) (s1.trans t1) hP hr' h)
      · right
        cases hv : getPath? doc1 P with
        | none => rw [hv] at ht; exact absurd rfl ht
        | some v =>
          rw [hv] at ht
          simp only [missingOr, decide_eq_true_eq] at ht
          refine ⟨[], List.nil_prefix, by simp, ?_⟩
          by_cases hv0 : v = .null
          · subst hv0
            exact .inr (null_origin s1 (by simpa using hP) (by simpa using hv))
          · obtain ⟨v', h3, h4⟩ := hk1.present hv hv0
            exact .inl ⟨v', by simpa using h3, by rw [h4.1]; exact ht, h4.ne_null hv0⟩
    | item => obtain ⟨k, hk⟩ := hr _ (List.mem_cons_self ..); cases hk
    | items => obtain ⟨k, hk⟩ := hr _ (List.mem_cons_self ..); cases hk
    | @member _ k ss t r d hk hss ht hd =>
      have hmem : t ∈ membersOf m kAllOf ++ membersOf m kOneOf ++ membersOf m kAnyOf := by
        have : t ∈ membersOf m k := by simp only [membersOf, hss]; exact ht
        simp only [combining, List.mem_cons, List.not_mem_nil, or_false] at hk
        simp only [List.mem_append]
        rcases hk with rfl | rfl | rfl
        · exact .inl (.inl this)
        · exact .inl (.inr this)
        · exact .inr this
      rcases hrest with ⟨d', _, h2, h3⟩ | ⟨hown, doc2, doc3, s2, s3, s4, _, _, h2⟩
      · by_cases hne : r = []
        · -- a default for the same place was written
          subst hne
          left
          have := setPath_below h3 []
          rw [List.append_nil] at this ⊢
          exact present_keeps hfin ⟨d', this, hn d' (.own h2)⟩
        · exact .inr (hide d' h2 hne)
      · obtain ⟨a, b, t1, t2, t3, t4⟩ := h2 t hmem
        rcases ih t a b P r d t2 t3 hd (fun d' h' => hn d' (member_combining hmem h')) hP hr fin (t4.keeps.trans hfin) with h | h
        · exact .inl h
        · exact .inr (blocked_same (fun _ _ => member_combining hmem) (s1.trans ((s2.trans s3).trans t1)) hP hr h)

/-! ## When a run fails -/

theorem wrote_ok {doc d : Val} {p : VPath} (ho : Open doc p) : ∃ doc', wrote (setPath doc p d) = some (doc', .ok ()) := by
  have := ho.stored d
  cases hs : setPath doc p d with
  | mk c er =>
    rw [hs] at this
    dsimp only at this
    subst this
    exact ⟨c, rfl⟩

theorem fillP_fails (get : Bytes → Out Val) (n : Nat) : ∀ (s doc : Val) (p : VPath) (x : Val × Out Unit), Open doc p →
    fillP get n s doc p = some x → x.2 ≠ .ok () → ∃ t, Reaches get s t ∧ Broken get t := by
  induction n with
  | zero => intro s doc p x _ h; cases h
  | succ n ih =>
    intro s doc p x ho h hx
    cases s with
    | map m =>
      rw [fillP] at h
      rcases andThen_some h with ⟨doc1, h1, h⟩ | ⟨h, _⟩
      · obtain ⟨s1, _⟩ := ref_sub ho h1
        have o1 := open_steps s1 ho
        cases hd : ownDefault m (getPath? doc1 p) with
        | some d =>
          rw [hd] at h
          obtain ⟨doc', e⟩ := wrote_ok (d := d) o1
          dsimp only at h
          rw [e] at h
          cases h
          exact absurd rfl hx
        | none =>
          rw [hd] at h
          dsimp only at h
          rcases andThen_some h with ⟨doc2, h2, h⟩ | ⟨h, _⟩
          · obtain ⟨s2, _⟩ := props_sub o1 h2
            have o2 := open_steps s2 o1
            rcases andThen_some h with ⟨doc3, h3, h⟩ | ⟨h, _⟩
            · obtain ⟨s3, _⟩ := items_sub o2 h3
              have o3 := open_steps s3 o2
              obtain ⟨as1, t, as2, d, e, h4, h5⟩ := forEach_stopped h hx
              have s4 := members_steps (m := m) (fun b hb => by rw [e]; exact List.mem_append_left _ hb) o3 _ h4
              obtain ⟨t', r1, r2⟩ := ih t d p x (open_steps s4 o3) h5 hx
              have ht : t ∈ membersOf m kAllOf ++ membersOf m kOneOf ++ membersOf m kAnyOf := by rw [e]; simp
              simp only [List.mem_append] at ht
              rcases ht with (ht | ht) | ht <;> obtain ⟨ss, g1, g2⟩ := mem_membersOf ht
              · exact ⟨t', .member (k := kAllOf) (by simp [combining]) g1 g2 r1, r2⟩
              · exact ⟨t', .member (k := kOneOf) (by simp [combining]) g1 g2 r1, r2⟩
              · exact ⟨t', .member (k := kAnyOf) (by simp [combining]) g1 g2 r1, r2⟩
            · rcases atItems_cases m doc2 (getPath? doc2 p) with ⟨v, g1, g2, e⟩ | ⟨_, e⟩ <;> rw [e] at h
              · obtain ⟨as1, t, as2, d, e', h4, h5⟩ := forEach_stopped h hx
                have hmem : ∀ b ∈ as1, b ∈ itemsOf v := fun b hb => by rw [e']; exact List.mem_append_left _ hb
                have ht : t ∈ itemsOf v := by rw [e']; simp
                have ls := loop_steps (get := get) (m := m) (el := fun a : Val × UInt32 => .index a.2) (sc := fun a => a.1) (as := as1)
                  (fun a ha => ⟨rfl, ofItems_noMax (hmem a ha)⟩) (fun a ha => item_default g2 a (hmem a ha))
                  (fun a ha d ho x hx => fillP_steps get n a.1 d _ ho x hx) o2 g1 _ h4
                obtain ⟨t', r1, r2⟩ := ih t.1 d _ x (open_below (e := .index t.2) ls.2.1 ls.2.2 (ofItems_noMax ht)) h5 hx
                rcases mem_itemsOf (s := t.1) (i := t.2) ht with ⟨l, j, rfl, hj, _, _⟩ | ⟨_, hv, _⟩
                · exact ⟨t', .item g2 (List.mem_of_getElem? hj) r1, r2⟩
                · exact ⟨t', .items g2 (hv ▸ r1), r2⟩
              · cases h; exact absurd rfl hx
          · rcases atProperties_cases m doc1 (getPath? doc1 p) with ⟨ps, g1, g2, e⟩ | ⟨_, e⟩ | ⟨v, _, g1, g2, g3, e⟩ <;> rw [e] at h
            · obtain ⟨as1, t, as2, d, e', h4, h5⟩ := forEach_stopped h hx
              have hmem : ∀ b ∈ as1, b ∈ ps := fun b hb => by rw [e']; exact List.mem_append_left _ hb
              have ht : t ∈ ps := by rw [e']; simp
              have ls := loop_steps (get := get) (m := m) (el := fun a : Bytes × Val => .key a.1) (sc := fun a => a.2) (as := as1)
                (fun a ha => ⟨rfl, by simp⟩) (fun a ha r d hd => .property g2 (hmem a ha) hd)
                (fun a ha d ho x hx => fillP_steps get n a.2 d _ ho x hx) o1 g1 _ h4
              obtain ⟨t', r1, r2⟩ := ih t.2 d _ x (open_below (e := .key t.1) ls.2.1 ls.2.2 (by simp)) h5 hx
              exact ⟨t', .property g2 ht r1, r2⟩
            · cases h; exact absurd rfl hx
            · exact ⟨_, .self, m, rfl, .inr ⟨v, g1, g2, g3⟩⟩
      · rcases atRef_cases get m doc with ⟨_, e⟩ | ⟨u, s, hr, hu, e⟩ | ⟨u, o, hr, hu, _, e⟩ <;> rw [e] at h
        · cases h; exact absurd rfl hx
        · obtain ⟨t, h1, h2⟩ := ih s doc p x ho h hx
          exact ⟨t, .ref hr hu h1, h2⟩
        · exact ⟨_, .self, m, rfl, .inl ⟨u, hr, hu⟩⟩
    | _ => rw [fillP] at h; cases h; exact absurd rfl hx; all_goals nofun

/-! ## A second run -/

/-- Everything is kept, and a null stays null or becomes a scalar. -/
def Kept (a b : Val) : Prop :=
  Keeps a b ∧ ∀ q, getPath? a q = some .null → ∃ v, getPath? b q = some v ∧ v.ty ≠ .list ∧ v.ty ≠ .map

theorem Kept.refl (a : Val) : Kept a a := ⟨Keeps.refl a, fun _ h => ⟨_, h, by simp [Val.ty], by simp [Val.ty]⟩⟩

theorem Kept.trans {a b c : Val} (h : Kept a b) (h' : Kept b c) : Kept a c := by
  refine ⟨h.1.trans h'.1, fun q hq => ?_⟩
  obtain ⟨v, h1, h2, h3⟩ := h.2 q hq
  by_cases hv : v = .null
  · exact h'.2 q (hv ▸ h1)
  · obtain ⟨v', h4, h5⟩ := h'.1.present h1 hv
    exact ⟨v', h4, by rw [h5.1]; exact h2, by rw [h5.1]; exact h3⟩

theorem step_kept {b c d : Val} {p : VPath} (hf : Free b p) (ho : Open b p) (hd : Scalar d) (h : setPath b p d = (c, none)) :
    Kept b c := by
  refine ⟨step_keeps hf h, fun q hq => ?_⟩
  rcases prefix_cases p q with ⟨r, rfl⟩ | ⟨e, s, rfl⟩ | hd'
  · rcases hf with hf | hf
    · rw [getPath?_append, hf] at hq; cases hq
    · rw [getPath?_append, hf] at hq
      cases r with
      | nil =>
        have := setPath_below h []
        exact ⟨d, this, hd.2⟩
      | cons e r => simp [getPath?, getElem?_null] at hq
  · exact absurd hq (ho.way q e s rfl)
  · rcases setPath_frame h hd' with h' | ⟨h', _⟩
    · rw [← h'] at hq
      exact ⟨_, hq, by simp [Val.ty], by simp [Val.ty]⟩
    · rw [h'] at hq; cases hq

theorem Steps.kept {D : VPath → Val → Prop} (hD : ∀ p d, D p d → Scalar d) {a b : Val} (h : Steps D a b) : Kept a b := by
  induction h with
  | refl => exact Kept.refl _
  | step _ h2 ho h3 h4 ih => exact ih.trans (step_kept h2 ho (hD _ _ h3) h4)

/-- At a scalar nothing is done. -/
theorem scalar_noop (get : Bytes → Out Val) (n : Nat) : ∀ (s doc v : Val) (p : VPath) (x : Val × Out Unit), getPath? doc p = some v →
    Scalar v → fillP get n s doc p = some x → x.1 = doc := by
  induction n with
  | zero => intro s doc v p x _ _ h; cases h
  | succ n ih =>
    intro s doc v p x hv hs h
    cases s with
    | map m =>
      rw [fillP] at h
      refine andThen_rel (R := fun a b => a = doc → b = doc) (fun h1 h2 h => h2 (h1 h)) ?_ ?_ x h rfl
      · intro x hx _
        rcases atRef_cases get m doc with ⟨_, e⟩ | ⟨u, s, hr, hg, e⟩ | ⟨u, o, _, _, _, e⟩ <;> rw [e] at hx
        · cases hx; rfl
        · exact ih s doc v p x hv hs hx
        · cases hx; rfl
      · intro d' _ x hx e0
        rw [e0] at hx
        clear e0
        rw [show ownDefault m (getPath? doc p) = none by
          rw [hv]; unfold ownDefault; rw [if_neg]; cases v <;> simp [missingOrNull]; exact hs.1 rfl] at hx
        dsimp only at hx
        have hp : ∀ f, atProperties m doc (getPath? doc p) f = some (doc, .ok ()) := fun f => by
          rw [hv]; unfold atProperties; rw [if_neg]; simpa [missingOr] using hs.2.2
        have hi : ∀ f, atItems m doc (getPath? doc p) f = some (doc, .ok ()) := fun f => by
          rw [hv]; unfold atItems; rw [if_neg]; simpa [missingOr] using hs.2.1
        rw [hp] at hx
        simp only [andThen] at hx
        rw [hi] at hx
        dsimp only at hx
        exact forEach_rel (R := fun a b => a = doc → b = doc) (fun _ h => h) (fun h1 h2 h => h2 (h1 h)) (b := doc)
          (fun y _ d _ x hx e => by rw [e] at hx; exact ih y _ v p x hv hs hx) doc id x hx rfl
    | _ => rw [fillP] at h; cases h; rfl; all_goals nofun

/-- If what is there in the end may be visited as a container, it could be visited before. -/
theorem kept_missingOr {a b : Val} {p : VPath} {t : Ty} (ht : t = .list ∨ t = .map) (h : Kept a b)
    (hb : missingOr t (getPath? b p) = true) : missingOr t (getPath? a p) = true := by
  cases hv : getPath? a p with
  | none => rfl
  | some v =>
    by_cases hn : v = .null
    · subst hn
      obtain ⟨w, h1, h2, h3⟩ := h.2 p hv
      rw [h1] at hb
      simp only [missingOr, decide_eq_true_eq] at hb
      rcases ht with rfl | rfl
      · exact absurd hb h2
      · exact absurd hb h3
    · obtain ⟨w, h1, h2⟩ := h.1.present hv hn
      rw [h1] at hb
      simp only [missingOr, decide_eq_true_eq] at hb ⊢
      rw [← h2.1, hb]

theorem fillP_stable (get : Bytes → Out Val) (n : Nat) : ∀ (s doc doc' : Val) (p : VPath), Open doc p →
    (∀ r d, DefaultAt get s r d → Scalar d) → fillP get n s doc p = some (doc', .ok ()) →
    ∀ fin, Kept doc' fin → ∀ n' x, fillP get n' s fin p = some x → x.1 = fin := by
  induction n with
  | zero => intro s doc doc' p _ _ h; cases h
  | succ n ih =>
    intro s doc doc' p ho hsc h fin hfin n' x hx
    cases n' with
    | zero => cases hx
    | succ n' =>
    cases s with
    | map m =>
      obtain ⟨doc1, s1, o1, s1', href, hrest⟩ := phases ho h
      have hD : ∀ q d, Below get (.map m) p q d → Scalar d := fun q d ⟨r, _, hd⟩ => hsc r d hd
      have hk1 : Kept doc1 fin := (s1'.kept hD).trans hfin
      rcases hrest with ⟨d, h1, h2, h3⟩ | ⟨hown, doc2, doc3, s2, s3, s4, hp, hi, hm⟩
      · -- a default was written: a scalar, nothing more happens there
        have hd := hsc [] d (.own h2)
        have := setPath_below h3 []
        rw [List.append_nil] at this
        obtain ⟨v, h4, h5⟩ := hfin.1.present this (fun e => hd.1 (by rw [e]; rfl))
        refine scalar_noop get _ _ fin v p x h4 ?_ hx
        unfold Scalar
        rw [h5.1]
        exact hd
      have hk2 : Kept doc2 fin := ((s3.trans s4).kept hD).trans hfin
      have hk3 : Kept doc3 fin := (s4.kept hD).trans hfin
      rw [fillP] at hx
      refine andThen_rel (R := fun a b => a = fin → b = fin) (fun h1 h2 h => h2 (h1 h)) ?_ ?_ x hx rfl
      · intro x hx _
        rcases atRef_cases get m fin with ⟨_, e⟩ | ⟨u, s, hr, hg, e⟩ | ⟨u, o, _, _, _, e⟩ <;> rw [e] at hx
        · cases hx; rfl
        · exact ih s doc doc1 p ho (fun r d hd => hsc r d (.ref hr hg hd)) (href u s hr hg) fin hk1 n' x hx
        · cases hx; rfl
      · intro d' _ x hx e0
        rw [e0] at hx
        clear e0
        have hown' : ownDefault m (getPath? fin p) = none := by
          unfold ownDefault
          rcases ownDefault_none hown with h1 | h1
          · rw [if_neg]
            cases hv : getPath? doc1 p with
            | none => rw [hv] at h1; cases h1
            | some v =>
              rw [hv] at h1
              obtain ⟨w, h2, h3⟩ := hk1.1.present hv (by rintro rfl; cases h1)
              rw [h2]
              have := h3.ne_null (by rintro rfl; cases h1)
              cases w <;> simp [missingOrNull] <;> exact absurd rfl this
          · rw [h1]; split <;> rfl
        rw [hown'] at hx
        dsimp only at hx
        refine andThen_rel (R := fun a b => a = fin → b = fin) (fun h1 h2 h => h2 (h1 h)) ?_ ?_ x hx rfl
        · intro x hx _
          rcases atProperties_cases m fin (getPath? fin p) with ⟨ps, g1, g2, e⟩ | ⟨_, e⟩ | ⟨_, _, _, _, _, e⟩ <;> rw [e] at hx
          · refine forEach_rel (R := fun a b => a = fin → b = fin) (fun _ h => h) (fun h1 h2 h => h2 (h1 h)) (b := fin) ?_ fin id x hx rfl
            intro y hy d' _ x hx e0
            rw [e0] at hx
            obtain ⟨a, b, t1, t2, t3, t4⟩ := hp (kept_missingOr (.inr rfl) hk1 g1) ps y g2 hy
            exact ih y.2 a b _ t2 (fun r d hd => hsc _ d (.property g2 hy hd)) t3 _ ((t4.kept hD).trans hk2) n' x hx
          · cases hx; rfl
          · cases hx; rfl
        · intro d' _ x hx e0
          rw [e0] at hx
          clear e0
          refine andThen_rel (R := fun a b => a = fin → b = fin) (fun h1 h2 h => h2 (h1 h)) ?_ ?_ x hx rfl
          · intro x hx _
            rcases atItems_cases m fin (getPath? fin p) with ⟨v, g1, g2, e⟩ | ⟨_, e⟩ <;> rw [e] at hx
            · refine forEach_rel (R := fun a b => a = fin → b = fin) (fun _ h => h) (fun h1 h2 h => h2 (h1 h)) (b := fin) ?_ fin id x hx rfl
              intro y hy d' _ x hx e0
              rw [e0] at hx
              obtain ⟨a, b, t1, t2, t3, t4⟩ := hi (kept_missingOr (.inl rfl) hk2 g1) v y g2 hy
              exact ih y.1 a b _ t2 (fun r d hd => hsc _ d (item_default g2 y hy r d hd)) t3 _ ((t4.kept hD).trans hk3) n' x hx
            · cases hx; rfl
          · intro d' _ x hx e0
            rw [e0] at hx
            clear e0
            refine forEach_rel (R := fun a b => a = fin → b = fin) (fun _ h => h) (fun h1 h2 h => h2 (h1 h)) (b := fin) ?_ fin id x hx rfl
            intro y hy d' _ x hx e0
            rw [e0] at hx
            obtain ⟨a, b, t1, t2, t3, t4⟩ := hm y hy
            exact ih y a b _ t2 (fun r d hd => hsc _ d (member_combining hy hd)) t3 _ ((t4.kept hD).trans hfin) n' x hx
    | _ => rw [fillP] at hx; cases hx; rfl; all_goals nofun

end Verif.Defaults
