import Verif.Schema.ReportAgrees
import Verif.Schema.ReportSpec
import Verif.Schema.Accept
/-!
# Every error has its place
-/

namespace Verif.Schema
open Verif

/-- `Explained`, `SubsBelow` and the same for the errors inside. -/
inductive Place (E : Env) (S X : Val) : Note → Prop
  | mk {n : Note} : Explained E S X n → SubsBelow n → (∀ r ∈ n.subs, ∀ n' ∈ r.1, Place E S X n') →
      (∀ r ∈ n.subs, ∀ p ∈ r.2, SchemaExplained E S X p) → (∀ r ∈ n.subs, r.1.length ≤ 1) → Place E S X n

def NGood (E : Env) (S X : Val) (c : Ctx) (n : Note) : Prop := c.schema <+: n.schema ∧ c.data <+: n.data ∧ Place E S X n
def SGood (E : Env) (S X : Val) (c : Ctx) (p : VPath) : Prop := c.schema <+: p ∧ SchemaExplained E S X p

/-- What is reported from a place on is below it and explained. -/
def Good (E : Env) (S X : Val) (c : Ctx) : DM → Prop
  | some (.go q) => ∀ p ∈ q, SGood E S X c p
  | some (.stop e q) => (e ≠ [] ∨ q ≠ []) ∧ e.length ≤ 1 ∧ (∀ n ∈ e, NGood E S X c n) ∧ ∀ p ∈ q, SGood E S X c p
  | _ => True

variable {E : Env} {S X : Val}

theorem good_ok {c : Ctx} : Good E S X c okD := nofun

theorem good_seq {c : Ctx} {a b : DM} (ha : Good E S X c a) (hb : Good E S X c b) : Good E S X c (seqD a b) := by
  rcases a with _ | (q | ⟨e, q⟩ | e | _)
  · trivial
  · rcases b with _ | (q' | ⟨e, q'⟩ | e | _)
    · trivial
    · intro p hp
      rcases List.mem_append.mp hp with h | h
      · exact ha p h
      · exact hb p h
    · refine ⟨?_, hb.2.1, hb.2.2.1, fun p hp => ?_⟩
      · rcases hb.1 with h | h
        · exact .inl h
        · exact .inr fun hn => h (List.append_eq_nil_iff.mp hn).2
      · rcases List.mem_append.mp hp with h | h
        · exact ha p h
        · exact hb.2.2.2 p h
    · trivial
    · trivial
  · exact ha
  · trivial
  · trivial

theorem good_each {α : Type} {c : Ctx} {f : Nat → α → DM} (xs : List α) :
    ∀ (n : Nat), (∀ (i : Nat) x, xs[i]? = some x → Good E S X c (f (n + i) x)) → Good E S X c (eachD f n xs) := by
  induction xs with
  | nil => intro n _; exact good_ok
  | cons x xs ih =>
    intro n h
    refine good_seq (h 0 x rfl) (ih (n + 1) fun i y hy => ?_)
    have := h (i + 1) y hy
    rwa [show n + (i + 1) = n + 1 + i by omega] at this

theorem good_withOut {α : Type} {c : Ctx} {o : Out α} {f : α → DM} (h : ∀ a, o = .ok a → Good E S X c (f a)) :
    Good E S X c (withOutD o f) := by
  cases o with
  | ok a => exact h a rfl
  | throw e => trivial
  | ub => trivial

theorem good_kw {c0 c : Ctx} {m : List (Bytes × Val)} {k : Bytes} {f : Ctx → Val → DM}
    (h : ∀ v, has m k v → Good E S X c0 (f (c.at (.key k)) v)) : Good E S X c0 (kwD m k c f) := by
  unfold kwD
  cases hv : AMap.get m k with
  | none => exact good_ok
  | some v => exact h v hv

theorem good_weaken {c c' : Ctx} {x : DM} (hs : c.schema <+: c'.schema) (hd : c.data <+: c'.data) (h : Good E S X c' x) :
    Good E S X c x := by
  rcases x with _ | (q | ⟨e, q⟩ | e | _)
  · trivial
  · exact fun p hp => ⟨hs.trans (h p hp).1, (h p hp).2⟩
  · exact ⟨h.1, h.2.1, fun n hn => ⟨hs.trans (h.2.2.1 n hn).1, hd.trans (h.2.2.1 n hn).2.1, (h.2.2.1 n hn).2.2⟩,
      fun p hp => ⟨hs.trans (h.2.2.2 p hp).1, (h.2.2.2 p hp).2⟩⟩
  · trivial
  · trivial

variable {k : Nat} {c : Ctx} {m : List (Bytes × Val)} {d : Val} {rec : RecD}

theorem good_err (hr : Reach E S X k c.schema (.map m) c.data d) {c' : Ctx} {ks ds : VPath}
    (hf : Fault E (judge E (k + 1)) m d ks ds []) (hs : c'.schema = c.schema ++ ks) (hd : c'.data = c.data ++ ds) :
    Good E S X c (errD c' []) := by
  refine ⟨.inl (List.cons_ne_nil _ _), Nat.le_refl _, fun n hn => ?_, nofun⟩
  cases List.mem_singleton.mp hn
  exact ⟨⟨ks, hs.symm⟩, ⟨ds, hd.symm⟩, .mk ⟨k, _, m, _, d, ks, ds, hr, hf, hs, hd⟩ (fun i r h => by simp [Note.subs] at h)
    nofun nofun nofun⟩

theorem good_serr (hr : Reach E S X k c.schema (.map m) c.data d) {c' : Ctx} {ks : VPath} (hf : Defect E m ks)
    (hs : c'.schema = c.schema ++ ks) : Good E S X c (serrD c') := by
  intro p hp
  cases List.mem_singleton.mp hp
  exact ⟨⟨ks, hs.symm⟩, .inl ⟨k, _, m, _, d, ks, hr, hf, hs⟩⟩

/-- What is required of the validation of subschemas. -/
def RecOk (E : Env) (S X : Val) (k : Nat) (rec : RecD) : Prop :=
  ∀ c s d, Reach E S X (k + 1) c.schema s c.data d → Good E S X c (rec c s d) ∧ verdict (forget (rec c s d)) = judge E (k + 1) s d

theorem rec_move (hrec : RecOk E S X k rec) (hr : Reach E S X k c.schema (.map m) c.data d) {sq dq : VPath} {t x : Val} {c' : Ctx}
    (hm : Move E (.map m) d sq dq t x) (hs : c'.schema = c.schema ++ sq) (hd : c'.data = c.data ++ dq) :
    Good E S X c' (rec c' t x) ∧ verdict (forget (rec c' t x)) = judge E (k + 1) t x :=
  hrec c' t x (by rw [hs, hd]; exact hr.step hm)

theorem good_move (hrec : RecOk E S X k rec) (hr : Reach E S X k c.schema (.map m) c.data d) {sq dq : VPath} {t x : Val} {c' : Ctx}
    (hm : Move E (.map m) d sq dq t x) (hs : c'.schema = c.schema ++ sq) (hd : c'.data = c.data ++ dq) :
    Good E S X c (rec c' t x) :=
  good_weaken ⟨sq, hs.symm⟩ ⟨dq, hd.symm⟩ (rec_move hrec hr hm hs hd).1

/-! ## Combinations -/

theorem good_not (hrec : RecOk E S X k rec) (hr : Reach E S X k c.schema (.map m) c.data d) : Good E S X c (vNotD rec c m d) := by
  refine good_kw fun s hs => ?_
  have h := rec_move hrec hr (.not hs) (c' := c.at (.key kNot)) rfl (List.append_nil _).symm
  rcases hx : rec (c.at (.key kNot)) s d with _ | ((_ | ⟨x, q⟩) | ⟨e, q⟩ | e | _) <;> try trivial
  · exact good_err hr (.not hs (by rw [← h.2, hx]; rfl)) rfl (List.append_nil _).symm
  · exact good_ok
  · exact good_ok

/-- What is known of the reports of the alternatives tried so far. -/
structure Tried (E : Env) (S X : Val) (c : Ctx) (subs : List Report) : Prop where
  below : ∀ (i : Nat) r, subs[i]? = some r → (r.1 ≠ [] ∨ r.2 ≠ []) ∧
    (∀ n' ∈ r.1, c.schema ++ [idx i] <+: n'.schema ∧ c.data <+: n'.data) ∧ ∀ p ∈ r.2, c.schema ++ [idx i] <+: p
  places : ∀ r ∈ subs, ∀ n' ∈ r.1, Place E S X n'
  defects : ∀ r ∈ subs, ∀ p ∈ r.2, SchemaExplained E S X p
  single : ∀ r ∈ subs, r.1.length ≤ 1

theorem tried_nil : Tried E S X c [] := ⟨by simp, nofun, nofun, nofun⟩

theorem tried_add {subs : List Report} (h : Tried E S X c subs) {r : Report} (h0 : r.1 ≠ [] ∨ r.2 ≠ [])
    (h1 : ∀ n ∈ r.1, NGood E S X (c.at (idx subs.length)) n) (h2 : ∀ p ∈ r.2, SGood E S X (c.at (idx subs.length)) p)
    (h3 : r.1.length ≤ 1) : Tried E S X c (subs ++ [r]) := by
  refine ⟨fun i r' hr => ?_, fun r' hr n hn => ?_, fun r' hr p hp => ?_, fun r' hr => ?_⟩
  · rcases Nat.lt_trichotomy i subs.length with hi | hi | hi
    · rw [List.getElem?_append_left hi] at hr
      exact h.below i r' hr
    · subst hi
      simp at hr
      subst hr
      exact ⟨h0, fun n hn => ⟨(h1 n hn).1, (h1 n hn).2.1⟩, fun p hp => (h2 p hp).1⟩
    · rw [List.getElem?_eq_none (by simp; omega)] at hr
      cases hr
  · rcases List.mem_append.mp hr with hr | hr
    · exact h.places r' hr n hn
    · cases List.mem_singleton.mp hr; exact (h1 n hn).2.2
  · rcases List.mem_append.mp hr with hr | hr
    · exact h.defects r' hr p hp
    · cases List.mem_singleton.mp hr; exact (h2 p hp).2
  · rcases List.mem_append.mp hr with hr | hr
    · exact h.single r' hr
    · cases List.mem_singleton.mp hr; exact h3

theorem good_noneOf (hr : Reach E S X k c.schema (.map m) c.data d) {key : Bytes} {ss : List Val} {subs : List Report}
    (hk : key ∈ [kAnyOf, kOneOf]) (hs : has m key (.list ss)) (hv : ∀ s ∈ ss, judge E (k + 1) s d = .reject)
    (hl : subs.length = ss.length) (ht : Tried E S X (c.at (.key key)) subs) : Good E S X c (errD (c.at (.key key)) subs) := by
  refine ⟨.inl (List.cons_ne_nil _ _), Nat.le_refl _, fun n hn => ?_, nofun⟩
  cases List.mem_singleton.mp hn
  exact ⟨⟨_, rfl⟩, ⟨[], List.append_nil _⟩, .mk ⟨k, _, m, _, d, [.key key], [], hr, .noneOf hk hs hv hl, rfl, (List.append_nil _).symm⟩
    ht.below ht.places ht.defects ht.single⟩

theorem snoc_split {α : Type} {pre : List α} {s : α} {ss : List α} : pre ++ s :: ss = (pre ++ [s]) ++ ss := by simp

theorem good_anyOfLoop (hrec : RecOk E S X k rec) (hr : Reach E S X k c.schema (.map m) c.data d) {all : List Val}
    (hs : has m kAnyOf (.list all)) (ss : List Val) : ∀ (pre : List Val) (subs : List Report), all = pre ++ ss →
    subs.length = pre.length → (∀ s ∈ pre, judge E (k + 1) s d = .reject) → Tried E S X (c.at (.key kAnyOf)) subs →
    Good E S X c (anyOfLoopD rec (c.at (.key kAnyOf)) d pre.length subs ss) := by
  induction ss with
  | nil =>
    intro pre subs he hl hv ht
    rw [List.append_nil] at he
    subst he
    exact good_noneOf hr (by simp) hs hv hl ht
  | cons s ss ih =>
    intro pre subs he hl hv ht
    have h := rec_move hrec hr (c' := (c.at (.key kAnyOf)).at (idx pre.length)) (.oneOfMany (k := kAnyOf) (s := s) (i := pre.length) (by simp) hs (by rw [he]; simp))
      (by simp [Ctx.at]) (List.append_nil _).symm
    have next : ∀ r : Report, (r.1 ≠ [] ∨ r.2 ≠ []) → (∀ n ∈ r.1, NGood E S X ((c.at (.key kAnyOf)).at (idx pre.length)) n) →
        (∀ p ∈ r.2, SGood E S X ((c.at (.key kAnyOf)).at (idx pre.length)) p) → r.1.length ≤ 1 → judge E (k + 1) s d = .reject →
        Good E S X c (anyOfLoopD rec (c.at (.key kAnyOf)) d (pre.length + 1) (subs ++ [r]) ss) := by
      intro r h0 h1 h2 h3 hj
      have := ih (pre ++ [s]) (subs ++ [r]) (he.trans snoc_split) (by simp [hl])
        (by intro x hx; rcases List.mem_append.mp hx with hx | hx
            · exact hv x hx
            · cases List.mem_singleton.mp hx; exact hj)
        (tried_add ht h0 (by rw [hl]; exact h1) (by rw [hl]; exact h2) h3)
      rwa [List.length_append] at this
    rw [anyOfLoopD]
    rcases hx : rec ((c.at (.key kAnyOf)).at (idx pre.length)) s d with _ | ((_ | ⟨x, q⟩) | ⟨e, q⟩ | e | _) <;>
      rw [hx] at h <;> dsimp only <;> try trivial
    · exact good_ok
    · exact next ([], x :: q) (.inr (List.cons_ne_nil _ _)) nofun h.1 (Nat.zero_le _) h.2.symm
    · exact next (e, q) h.1.1 h.1.2.2.1 h.1.2.2.2 h.1.2.1 h.2.symm

theorem good_oneOfLoop (hrec : RecOk E S X k rec) (hr : Reach E S X k c.schema (.map m) c.data d) {all : List Val}
    (hs : has m kOneOf (.list all)) (ss : List Val) : ∀ (pre : List Val) (num : Nat) (subs : List Report), all = pre ++ ss →
    num ≤ 1 → (num = 0 → subs.length = pre.length ∧ (∀ s ∈ pre, judge E (k + 1) s d = .reject) ∧ Tried E S X (c.at (.key kOneOf)) subs) →
    (num = 1 → ∃ (j : Nat) (t : Val), pre[j]? = some t ∧ judge E (k + 1) t d = .accept) →
    Good E S X c (oneOfLoopD rec (c.at (.key kOneOf)) d num pre.length subs ss) := by
  induction ss with
  | nil =>
    intro pre num subs he hn h0 h1
    rw [List.append_nil] at he
    subst he
    rw [oneOfLoopD]
    split
    · rename_i hz
      obtain ⟨hl, hv, ht⟩ := h0 hz
      exact good_noneOf hr (by simp) hs hv hl ht
    · exact good_ok
  | cons s ss ih =>
    intro pre num subs he hn h0 h1
    have h := rec_move hrec hr (c' := (c.at (.key kOneOf)).at (idx pre.length)) (.oneOfMany (k := kOneOf) (s := s) (i := pre.length) (by simp) hs (by rw [he]; simp))
      (by simp [Ctx.at]) (List.append_nil _).symm
    have found : ∀ {j : Nat} {t : Val}, pre[j]? = some t → (pre ++ [s])[j]? = some t := by
      intro j t hj
      have := (List.getElem?_eq_some_iff.mp hj).1
      rw [List.getElem?_append_left this, hj]
    have next : ∀ r : Report, (r.1 ≠ [] ∨ r.2 ≠ []) → (∀ n ∈ r.1, NGood E S X ((c.at (.key kOneOf)).at (idx pre.length)) n) →
        (∀ p ∈ r.2, SGood E S X ((c.at (.key kOneOf)).at (idx pre.length)) p) → r.1.length ≤ 1 → judge E (k + 1) s d = .reject →
        Good E S X c (oneOfLoopD rec (c.at (.key kOneOf)) d num (pre.length + 1) (subs ++ [r]) ss) := by
      intro r g0 g1 g2 g3 hj
      have := ih (pre ++ [s]) num (subs ++ [r]) (he.trans snoc_split) hn
        (by
          intro hz
          obtain ⟨hl, hv, ht⟩ := h0 hz
          refine ⟨by simp [hl], fun x hx => ?_, tried_add ht g0 (by rw [hl]; exact g1) (by rw [hl]; exact g2) g3⟩
          rcases List.mem_append.mp hx with hx | hx
          · exact hv x hx
          · cases List.mem_singleton.mp hx; exact hj)
        (by
          intro hz
          obtain ⟨j, t, hj, ha⟩ := h1 hz
          exact ⟨j, t, found hj, ha⟩)
      rwa [List.length_append] at this
    rw [oneOfLoopD]
    rcases hx : rec ((c.at (.key kOneOf)).at (idx pre.length)) s d with _ | ((_ | ⟨x, q⟩) | ⟨e, q⟩ | e | _) <;>
      rw [hx] at h <;> dsimp only <;> try trivial
    · split
      · obtain ⟨j, t, hj, ha⟩ := h1 (by omega)
        have hlt := (List.getElem?_eq_some_iff.mp hj).1
        exact good_err hr (.twoOf (i := j) (j := pre.length) (s := t) (t := s) hs hlt
          (by rw [he, List.getElem?_append_left hlt, hj]) (by rw [he]; simp) ha h.2.symm) rfl (List.append_nil _).symm
      · have := ih (pre ++ [s]) (num + 1) subs (he.trans snoc_split) (by omega) (by omega)
          (fun _ => ⟨pre.length, s, by simp, h.2.symm⟩)
        rwa [List.length_append] at this
    · exact next ([], x :: q) (.inr (List.cons_ne_nil _ _)) nofun h.1 (Nat.zero_le _) h.2.symm
    · have := next (e, q) h.1.1 h.1.2.2.1 h.1.2.2.2 h.1.2.1 h.2.symm
      have hne : (e.isEmpty && q.isEmpty) = false := by
        rcases h.1.1 with hne | hne
        · cases e
          · exact absurd rfl hne
          · rfl
        · cases q
          · exact absurd rfl hne
          · cases e <;> rfl
      rw [hne]
      exact this

theorem good_combinations (hrec : RecOk E S X k rec) (hr : Reach E S X k c.schema (.map m) c.data d) :
    Good E S X c (vCombinationsD rec c m d) := by
  refine good_seq (good_kw fun v hv => ?_) (good_seq (good_kw fun v hv => ?_) (good_seq (good_kw fun v hv => ?_) (good_not hrec hr)))
  · cases v with
    | list ss =>
      refine good_each ss 0 fun i s hs => ?_
      exact good_move hrec hr (.oneOfMany (i := i) (by simp) hv hs) (by simp [Ctx.at]) (List.append_nil _).symm
    | _ => exact good_serr hr (.noList (by simp) hv nofun) rfl
  · cases v with
    | list ss => exact good_anyOfLoop hrec hr hv ss [] [] rfl rfl nofun tried_nil
    | _ => exact good_serr hr (.noList (by simp) hv nofun) rfl
  · cases v with
    | list ss => exact good_oneOfLoop hrec hr hv ss [] 0 [] rfl (by omega) (fun _ => ⟨rfl, nofun, tried_nil⟩) nofun
    | _ => exact good_serr hr (.noList (by simp) hv nofun) rfl

/-! ## Objects -/

theorem good_sizeLimit (hr : Reach E S X k c.schema (.map m) c.data d) {key : Bytes} {bad : UInt64 → Bool}
    (hk : key ∈ [kMinimum, kMaximum, kMultipleOf, kDivisibleBy, kMinLength, kMaxLength, kMinItems, kMaxItems, kMinProperties, kMaxProperties])
    (hf : ∀ l u, has m key l → asUnsignedNum l = .ok u → bad u = true → Fault E (judge E (k + 1)) m d [.key key] [] []) :
    Good E S X c (sizeLimitD c m key bad) := by
  refine good_kw fun l hl => ?_
  split
  · refine good_withOut fun u hu => ?_
    split
    · rename_i hb
      exact good_err hr (hf l u hl hu hb) rfl (List.append_nil _).symm
    · exact good_ok
  · rename_i hn
    exact good_serr hr (.noNumber hk hl (by simpa using hn)) rfl

theorem good_size (hr : Reach E S X k c.schema (.map m) c.data d) {kmin kmax : Bytes}
    (h1 : (kmin, d.ty) ∈ [(kMinLength, Ty.str), (kMinItems, .list), (kMinProperties, .map)])
    (h2 : (kmax, d.ty) ∈ [(kMaxLength, Ty.str), (kMaxItems, .list), (kMaxProperties, .map)]) :
    Good E S X c (vSizeD c m kmin kmax d) := by
  refine good_seq (good_sizeLimit hr ?_ fun l u hl hu hb => .tooSmall h1 rfl hl hu (by simpa using hb))
    (good_sizeLimit hr ?_ fun l u hl hu hb => .tooLarge h2 rfl hl hu (by simpa using hb))
  · simp only [List.mem_cons, Prod.mk.injEq, List.not_mem_nil, or_false] at h1
    rcases h1 with h | h | h <;> rw [h.1] <;> simp
  · simp only [List.mem_cons, Prod.mk.injEq, List.not_mem_nil, or_false] at h2
    rcases h2 with h | h | h <;> rw [h.1] <;> simp

theorem good_required {dm : List (Bytes × Val)} (hr : Reach E S X k c.schema (.map m) c.data (.map dm)) : Good E S X c (vRequiredD c m dm) := by
  refine good_kw fun v hv => ?_
  cases v with
  | list ks =>
    refine good_each ks 0 fun i r hi => ?_
    rw [Nat.zero_add]
    cases r with
    | str key =>
      unfold requiredKeyD
      dsimp only
      split
      · exact good_ok
      · rename_i hn
        exact good_err hr (.required hv hi (by simpa [lacks] using hn)) (by simp [Ctx.at]) (List.append_nil _).symm
    | _ => exact good_serr hr (.requiredItem hv hi nofun) (by simp [Ctx.at])
  | _ => exact good_serr hr (.noList (by simp) hv nofun) rfl

theorem mem_of_at {α : Type} {xs : List α} {i : Nat} {x : α} (h : xs[i]? = some x) : x ∈ xs := List.mem_of_getElem? h

theorem good_dependencies {dm : List (Bytes × Val)} (hrec : RecOk E S X k rec) (hr : Reach E S X k c.schema (.map m) c.data (.map dm)) :
    Good E S X c (vDependenciesD E rec c m dm) := by
  refine good_kw fun v hv => ?_
  cases v with
  | map deps =>
    refine good_each deps 0 fun i e he => ?_
    obtain ⟨key, dep⟩ := e
    have hmem := mem_of_at he
    unfold vDependencyD
    dsimp only
    split
    · rename_i hin
      have plain : ∀ {c' : Ctx} {t : Bytes} {ks : VPath}, (lacks dm t → Fault E (judge E (k + 1)) m (.map dm) ks [] []) →
          c'.schema = c.schema ++ ks → c'.data = c.data → Good E S X c (depKeyD c' dm t) := by
        intro c' t ks hf h1 h2
        unfold depKeyD
        split
        · exact good_ok
        · rename_i hn
          exact good_err hr (hf (by simpa [lacks] using hn)) h1 (h2.trans (List.append_nil _).symm)
      cases dep with
      | str t => exact plain (fun h => .dependency hv hmem hin h) (by simp [Ctx.at]) rfl
      | list rs =>
        refine good_each rs 0 fun j r hj => good_withOut fun t ht => ?_
        rw [Nat.zero_add]
        exact plain (fun h => .dependencies hv hmem hin hj ht h) (by simp [Ctx.at]) rfl
      | map dm' => exact good_move hrec hr (.dependencies hv hmem hin) (by simp [Ctx.at]) (List.append_nil _).symm
      | _ => exact good_serr hr (.dependency hv hmem nofun nofun nofun) (by simp [Ctx.at])
    · exact good_ok
  | _ => exact good_serr hr (.noObject (by simp) hv nofun) rfl

theorem compile_defects (c : Ctx) (ps : List (Bytes × Val)) : ∀ p ∈ (compileD E c ps).2, ∃ q s, (q, s) ∈ ps ∧
    E.regex (q.takeWhile (· ≠ 0)) = none ∧ p = c.schema ++ [.key q] := by
  induction ps with
  | nil => nofun
  | cons e r ih =>
    obtain ⟨q, s⟩ := e
    intro p hp
    rw [compileD] at hp
    cases hx : E.regex (q.takeWhile (· ≠ 0)) with
    | none =>
      rw [hx] at hp
      rcases List.mem_cons.mp hp with hp | hp
      · exact ⟨q, s, List.mem_cons_self, hx, hp⟩
      · obtain ⟨q', s', h1, h2⟩ := ih p hp
        exact ⟨q', s', List.mem_cons_of_mem _ h1, h2⟩
    | some g =>
      rw [hx] at hp
      obtain ⟨q', s', h1, h2⟩ := ih p hp
      exact ⟨q', s', List.mem_cons_of_mem _ h1, h2⟩

theorem compileD_mem (c : Ctx) (ps : List (Bytes × Val)) (q : Bytes) (g : Bytes → Bool) (s : Val) :
    (q, g, s) ∈ (compileD E c ps).1 ↔ (q, s) ∈ ps ∧ E.regex (q.takeWhile (· ≠ 0)) = some g := by
  induction ps with
  | nil => simp [compileD]
  | cons e r ih =>
    obtain ⟨q', s'⟩ := e
    rw [compileD]
    cases hx : E.regex (q'.takeWhile (· ≠ 0)) with
    | none =>
      rw [ih]
      constructor
      · rintro ⟨a, b⟩; exact ⟨List.mem_cons_of_mem _ a, b⟩
      · rintro ⟨a, b⟩
        rcases List.mem_cons.mp a with a | a
        · cases a; rw [hx] at b; cases b
        · exact ⟨a, b⟩
    | some g' =>
      dsimp only
      rw [List.mem_cons, ih]
      constructor
      · rintro (a | ⟨a, b⟩)
        · cases a; exact ⟨List.mem_cons_self, hx⟩
        · exact ⟨List.mem_cons_of_mem _ a, b⟩
      · rintro ⟨a, b⟩
        rcases List.mem_cons.mp a with a | a
        · cases a; rw [hx] at b; cases b; exact .inl rfl
        · exact .inr ⟨a, b⟩

theorem patternsD_mem (c : Ctx) (q : Bytes) (g : Bytes → Bool) (s : Val) :
    (q, g, s) ∈ (patternsOfD E c m).1 ↔ ∃ ps, has m kPatternProperties (.map ps) ∧ (q, s) ∈ ps ∧ E.regex (q.takeWhile (· ≠ 0)) = some g := by
  unfold patternsOfD has
  rcases AMap.get m kPatternProperties with _ | v
  · constructor
    · nofun
    · rintro ⟨_, h, _⟩; cases h
  · cases v with
    | map ps =>
      dsimp only
      rw [compileD_mem]
      constructor
      · intro h; exact ⟨ps, rfl, h⟩
      · rintro ⟨ps', h1, h2⟩; cases h1; exact h2
    | _ =>
      constructor
      · nofun
      · rintro ⟨_, h, _⟩; cases h

theorem propertiesD_get (c : Ctx) (key : Bytes) (s : Val) :
    AMap.get (propertiesOfD c m).1 key = some s ↔ ∃ ps, has m kProperties (.map ps) ∧ has ps key s := by
  unfold propertiesOfD has
  rcases AMap.get m kProperties with _ | v
  · constructor
    · nofun
    · rintro ⟨_, h, _⟩; cases h
  · cases v with
    | map ps =>
      constructor
      · intro h; exact ⟨ps, rfl, h⟩
      · rintro ⟨ps', h1, h2⟩; cases h1; exact h2
    | _ =>
      constructor
      · nofun
      · rintro ⟨_, h, _⟩; cases h

theorem good_properties {dm : List (Bytes × Val)} (hrec : RecOk E S X k rec) (hr : Reach E S X k c.schema (.map m) c.data (.map dm)) :
    Good E S X c (vPropertiesD E rec c m dm) := by
  refine good_seq ?_ (good_seq ?_ (good_each dm 0 fun i e he => ?_))
  · intro p hp
    unfold patternsOfD at hp
    cases hv : AMap.get m kPatternProperties with
    | none => rw [hv] at hp; cases hp
    | some v =>
      rw [hv] at hp
      cases v with
      | map ps =>
        obtain ⟨q, s, h1, h2, rfl⟩ := compile_defects _ ps p hp
        exact ⟨⟨[.key kPatternProperties, .key q], by simp [Ctx.at]⟩, .inl ⟨k, _, m, _, _, _, hr, .patternKey hv h1 h2, by simp [Ctx.at]⟩⟩
      | _ =>
        cases List.mem_singleton.mp hp
        exact ⟨⟨_, rfl⟩, .inl ⟨k, _, m, _, _, _, hr, .noObject (k := kPatternProperties) (by simp) hv nofun, rfl⟩⟩
  · intro p hp
    unfold propertiesOfD at hp
    cases hv : AMap.get m kProperties with
    | none => rw [hv] at hp; cases hp
    | some v =>
      rw [hv] at hp
      cases v with
      | map ps => cases hp
      | _ =>
        cases List.mem_singleton.mp hp
        exact ⟨⟨[], List.append_nil _⟩, .inl ⟨k, _, m, _, _, _, hr, .properties hv nofun, (List.append_nil _).symm⟩⟩
  · obtain ⟨key, x⟩ := e
    have hmem := mem_of_at he
    unfold vPropertyD
    dsimp only
    refine good_seq ?_ (good_seq (good_each _ 0 fun j p hp => ?_) ?_)
    · cases hg : AMap.get (propertiesOfD c m).1 key with
      | none => exact good_ok
      | some s =>
        obtain ⟨ps, h1, h2⟩ := (propertiesD_get c key s).mp hg
        exact good_move hrec hr (.properties h1 h2 hmem) (by simp [Ctx.at, Ctx.into]) (by simp [Ctx.at, Ctx.into])
    · obtain ⟨q, g, s⟩ := p
      have hp := List.mem_filter.mp (mem_of_at hp)
      obtain ⟨ps, h1, h2, h3⟩ := (patternsD_mem c q g s).mp hp.1
      exact good_move hrec hr (.patterns h1 h2 ⟨g, h3, hp.2⟩ hmem) (by simp [Ctx.at, Ctx.into]) (by simp [Ctx.at, Ctx.into])
    · split
      · rename_i hno
        have hu : Uncovered E m key := by
          refine ⟨fun ps hps => ?_, fun ps q s hps hq hm => ?_⟩
          · cases hg : AMap.get ps key with
            | none => exact hg
            | some s =>
              rw [(propertiesD_get c key s).mpr ⟨ps, hps, hg⟩] at hno
              cases hno.1
          · obtain ⟨g, h1, h2⟩ := hm
            have : (q, g, s) ∈ (patternsOfD E c m).1.filter fun p => p.2.1 (key.takeWhile (· ≠ 0)) :=
              List.mem_filter.mpr ⟨(patternsD_mem c q g s).mpr ⟨ps, hps, hq, h1⟩, h2⟩
            rw [hno.2] at this
            cases this
        refine good_kw fun a ha => ?_
        have move := good_move hrec hr (.additionalProperties hu ha hmem) (c' := (c.into (.key key)).at (.key kAdditionalProperties))
          (by simp [Ctx.at, Ctx.into]) (by simp [Ctx.at, Ctx.into])
        cases a with
        | bool b =>
          cases b with
          | true => exact good_ok
          | false => exact good_err hr (.additionalProperties ha hmem hu) (by simp [Ctx.at, Ctx.into]) (by simp [Ctx.at, Ctx.into])
        | _ => exact move
      · exact good_ok

theorem good_object (hrec : RecOk E S X k rec) (hr : Reach E S X k c.schema (.map m) c.data d) : Good E S X c (vObjectD E rec c m d) := by
  cases d with
  | map dm =>
    exact good_seq (good_size hr (by simp [Val.ty]) (by simp [Val.ty])) (good_seq (good_required hr)
      (good_seq (good_properties hrec hr) (good_dependencies hrec hr)))
  | _ => exact good_ok

/-! ## Arrays -/

theorem good_itemsLoop {xs ss : List Val} (hrec : RecOk E S X k rec) (hr : Reach E S X k c.schema (.map m) c.data (.list xs))
    (hs : has m kItems (.list ss)) (ys : List Val) : ∀ (i : Nat) (ts : List Val), xs.drop i = ys → ss.drop i = ts →
    Good E S X c (itemsLoopD rec c m i ts ys) := by
  induction ys with
  | nil => intro i ts _ _; cases ts <;> exact good_ok
  | cons y ys ih =>
    intro i ts hy ht
    have hi : xs[i]? = some y := by
      have := congrArg (·[0]?) hy
      simpa using this
    have hy' : xs.drop (i + 1) = ys := by
      rw [← List.tail_drop, hy]; rfl
    cases ts with
    | nil =>
      have hl : ss.length ≤ i := List.drop_eq_nil_iff.mp ht
      refine good_seq (good_kw fun a ha => ?_) (ih (i + 1) [] hy' (List.drop_eq_nil_iff.mpr (by omega)))
      have move := good_move hrec hr (.additionalItems hs hl ha hi) (c' := (c.into (idx i)).at (.key kAdditionalItems))
        (by simp [Ctx.at, Ctx.into]) (by simp [Ctx.at, Ctx.into])
      cases a with
      | bool b =>
        cases b with
        | true => exact good_ok
        | false =>
          exact good_err hr (.additionalItems hs ha hl (List.getElem?_eq_some_iff.mp hi).1) (by simp [Ctx.at, Ctx.into])
            (by simp [Ctx.at, Ctx.into])
      | _ => exact move
    | cons t ts =>
      have ht0 : ss[i]? = some t := by
        have := congrArg (·[0]?) ht
        simpa using this
      have ht' : ss.drop (i + 1) = ts := by
        rw [← List.tail_drop, ht]; rfl
      exact good_seq (good_move hrec hr (.itemsAt hs ht0 hi) (by simp [Ctx.at, Ctx.into]) (by simp [Ctx.at, Ctx.into])) (ih (i + 1) ts hy' ht')

theorem good_unique {xs : List Val} (hr : Reach E S X k c.schema (.map m) c.data (.list xs)) (hu : has m kUniqueItems (.bool true))
    (ys : List Val) : ∀ i : Nat, xs.drop i = ys → Good E S X c (uniqueLoopD E (c.at (.key kUniqueItems)) ys) := by
  induction ys with
  | nil => intro i _; exact good_ok
  | cons y ys ih =>
    intro i hy
    have hi : xs[i]? = some y := by
      have := congrArg (·[0]?) hy
      simpa using this
    have hy' : xs.drop (i + 1) = ys := by
      rw [← List.tail_drop, hy]; rfl
    refine good_seq (good_each ys 0 fun j z hz => ?_) (ih (i + 1) hy')
    split
    · rename_i he
      rw [← hy', List.getElem?_drop] at hz
      exact good_err hr (.uniqueItems (i := i) hu (by omega) hi hz (by simp only [Bool.and_eq_true] at he; exact he.2)) rfl
        (List.append_nil _).symm
    · exact good_ok

theorem good_array (hrec : RecOk E S X k rec) (hr : Reach E S X k c.schema (.map m) c.data d) : Good E S X c (vArrayD E rec c m d) := by
  cases d with
  | list xs =>
    refine good_seq (good_size hr (by simp [Val.ty]) (by simp [Val.ty])) (good_seq (good_kw fun u hu => ?_) ?_)
    · cases u with
      | bool b =>
        cases b with
        | true => exact good_unique hr hu xs 0 rfl
        | false => exact good_ok
      | _ => exact good_serr hr (.noBool hu nofun) rfl
    · unfold vItemsD
      cases hi : AMap.get m kItems with
      | none => exact good_ok
      | some s =>
        have one : s.ty ≠ .list → Good E S X c (eachD (fun i x => rec ((c.into (idx i)).at (.key kItems)) s x) 0 xs) := by
          intro hs
          refine good_each xs 0 fun i x hx => ?_
          rw [Nat.zero_add]
          exact good_move hrec hr (.items hi hs hx) (by simp [Ctx.at, Ctx.into]) (by simp [Ctx.at, Ctx.into])
        cases s with
        | list ss => exact good_itemsLoop hrec hr hi xs 0 ss rfl rfl
        | _ => exact one nofun
  | _ => exact good_ok

/-! ## Strings -/

theorem good_string (hr : Reach E S X k c.schema (.map m) c.data d) : Good E S X c (vStringD E c m d) := by
  cases d with
  | str s =>
    refine good_seq (good_size hr (by simp [Val.ty]) (by simp [Val.ty])) (good_seq (good_kw fun p hp => ?_) (good_kw fun f hf => ?_))
    · cases p with
      | str t =>
        dsimp only
        unfold matchReD
        cases hg : E.regex (t.takeWhile (· ≠ 0)) with
        | none => exact good_serr hr (.pattern hp hg) rfl
        | some g =>
          dsimp only
          split
          · exact good_ok
          · rename_i hb
            exact good_err hr (.pattern hp hg (by simpa using hb)) rfl (List.append_nil _).symm
      | _ => exact good_serr hr (.noString hp nofun) rfl
    · cases f with
      | str f =>
        dsimp only
        split
        · rename_i hw
          subst hw
          split
          · exact good_ok
          · rename_i hb
            exact good_err hr (.formatRegex hf (by simpa using hb)) rfl (List.append_nil _).symm
        · have one : ∀ re, (f, re) ∈ [(wDateTime, reDateTime), (wDate, reDate), (wTime, reTime)] →
              Good E S X c (matchReD E (c.at (.key kFormat)) re s) := by
            intro re hm
            unfold matchReD
            cases hg : E.regex re with
            | none => exact good_serr hr (.format hm hf hg) rfl
            | some g =>
              dsimp only
              split
              · exact good_ok
              · rename_i hb
                exact good_err hr (.format hm hf hg (by simpa using hb)) rfl (List.append_nil _).symm
          have pick : ∀ re, ((f, re) ∈ [(wDateTime, reDateTime), (wDate, reDate), (wTime, reTime)] ∨ re = []) →
              Good E S X c (if re = [] then okD else matchReD E (c.at (.key kFormat)) re s) := by
            intro re hre
            split
            · exact good_ok
            · rename_i hne
              exact one re (hre.resolve_right hne)
          refine pick _ ?_
          by_cases h1 : f = wDateTime
          · rw [if_pos h1, h1]; simp
          · rw [if_neg h1]
            by_cases h2 : f = wDate
            · rw [if_pos h2, h2]; simp
            · rw [if_neg h2]
              by_cases h3 : f = wTime
              · rw [if_pos h3, h3]; simp
              · rw [if_neg h3]; exact .inr rfl
      | _ => exact good_ok
  | _ => exact good_ok

/-! ## Numbers -/

theorem good_limit (hr : Reach E S X k c.schema (.map m) c.data d) {key kx : Bytes} {bad : Int → Bool}
    (hk : key ∈ [kMinimum, kMaximum, kMultipleOf, kDivisibleBy, kMinLength, kMaxLength, kMinItems, kMaxItems, kMinProperties, kMaxProperties])
    (h1 : ∀ l, has m key l → isNumber l = true → bad (cmp E.p d l) = true → Fault E (judge E (k + 1)) m d [.key key] [] [])
    (h2 : ∀ l x, has m key l → isNumber l = true → has m kx x → asBool x = .ok true → cmp E.p d l = 0 →
      Fault E (judge E (k + 1)) m d [.key kx] [] []) :
    Good E S X c (limitD E c m key kx d bad) := by
  refine good_kw fun l hl => ?_
  split
  · rename_i hn
    split
    · rename_i hb
      exact good_err hr (h1 l hl hn hb) rfl (List.append_nil _).symm
    · refine good_kw fun x hx => good_withOut fun b hb => ?_
      split
      · rename_i he
        simp only [Bool.and_eq_true, beq_iff_eq] at he
        rw [he.1] at hb
        exact good_err hr (h2 l x hl hn hx hb he.2) rfl (List.append_nil _).symm
      · exact good_ok
  · rename_i hn
    exact good_serr hr (.noNumber hk hl (by simpa using hn)) rfl

theorem good_multipleOf (hn : isNumber d = true) (hr : Reach E S X k c.schema (.map m) c.data d) : Good E S X c (vMultipleOfD E c m d) := by
  refine good_kw fun q hq => ?_
  have hk : multKey m = kMultipleOf ∨ (multKey m = kDivisibleBy ∧ lacks m kMultipleOf) := by
    unfold multKey
    split
    · exact .inl rfl
    · rename_i h
      exact .inr ⟨rfl, by simpa [lacks] using h⟩
  have fault : NoMultiple E d q → Fault E (judge E (k + 1)) m d [.key (multKey m)] [] [] := by
    intro h
    rcases hk with hk | ⟨hk, hl⟩ <;> rw [hk] at hq ⊢
    · exact .multipleOf hn hq h
    · exact .divisibleBy hn hl hq h
  split
  · rename_i hbad
    refine good_serr hr (ks := [.key (multKey m)]) ?_ rfl
    rcases hbad with hb | hb
    · refine .noNumber ?_ hq hb
      rcases hk with hk | ⟨hk, _⟩ <;> rw [hk] <;> simp
    · refine .negative ?_ hq hb
      rcases hk with hk | ⟨hk, _⟩ <;> rw [hk] <;> simp
  · split
    · rename_i hf
      cases ha : numLD E.p d with
      | none => exact good_ok
      | some a =>
        cases hb : numLD E.p q with
        | none => exact good_ok
        | some b =>
          dsimp only
          split
          · rename_i hlt
            simp only [Bool.and_eq_true] at hlt
            exact good_err hr (fault (.inr ⟨hf, a, b, ha, hb, hlt.1, hlt.2⟩)) rfl (List.append_nil _).symm
          · exact good_ok
    · rename_i hf
      refine good_withOut fun r hr' => ?_
      split
      · exact good_ok
      · rename_i hz
        exact good_err hr (fault (.inl ⟨fun h => hf (.inl h), fun h => hf (.inr h), r, hr', hz⟩)) rfl (List.append_nil _).symm

theorem good_numeric (hr : Reach E S X k c.schema (.map m) c.data d) : Good E S X c (vNumericD E c m d) := by
  unfold vNumericD
  split
  · rename_i hn
    exact good_seq (good_multipleOf hn hr) (good_seq
      (good_limit hr (by simp) (fun l a b h => .minimum hn a b (by simpa using h)) (fun l x a b h1 h2 h3 => .exclusiveMinimum hn a b h1 h2 h3))
      (good_limit hr (by simp) (fun l a b h => .maximum hn a b (by simpa using h)) (fun l x a b h1 h2 h3 => .exclusiveMaximum hn a b h1 h2 h3)))
  · exact good_ok

/-! ## Any value -/

theorem good_enum (hr : Reach E S X k c.schema (.map m) c.data d) : Good E S X c (vEnumD E c m d) := by
  refine good_kw fun v hv => ?_
  cases v with
  | list vs =>
    dsimp only
    split
    · exact good_ok
    · rename_i hn
      refine good_err hr (.enum hv fun v hm => ?_) rfl (List.append_nil _).symm
      cases he : veq E.p v d with
      | false => rfl
      | true =>
        refine absurd (List.any_eq_true.mpr ⟨v, hm, ?_⟩) hn
        have he' : cmp E.p v d = 0 := by simpa [veq] using he
        rw [cmp_incomparable he', he']
        rfl
  | _ => exact good_serr hr (.noList (by simp) hv nofun) rfl

theorem unknown_type {w : Val} (h : hasType E d w = none) : ∀ n ∈ knownTypes, w ≠ .str n := by
  rintro n hn rfl
  simp only [knownTypes, List.mem_cons, List.not_mem_nil, or_false] at hn
  unfold hasType at h
  dsimp only at h
  repeat (split at h; · cases h)
  rcases hn with h' | h' | h' | h' | h' | h' | h' <;> contradiction

theorem good_typeLoop (hr : Reach E S X k c.schema (.map m) c.data d) {t : Val} (ht : has m kType t) (ws : List Val) :
    ∀ i : Nat, (namesIn t).drop i = ws → (∀ w ∈ (namesIn t).take i, hasType E d w ≠ some true) →
    Good E S X c (typeLoopD E (c.at (.key kType)) d i ws) := by
  induction ws with
  | nil =>
    intro i hd hn
    refine good_err hr (.type ht fun w hw => hn w ?_) rfl (List.append_nil _).symm
    rwa [List.take_of_length_le (List.drop_eq_nil_iff.mp hd)]
  | cons w ws ih =>
    intro i hd hn
    have hi : (namesIn t)[i]? = some w := by
      have := congrArg (·[0]?) hd
      simpa using this
    have hd' : (namesIn t).drop (i + 1) = ws := by
      rw [← List.tail_drop, hd]; rfl
    have more : hasType E d w ≠ some true → ∀ v ∈ (namesIn t).take (i + 1), hasType E d v ≠ some true := by
      intro hw v hv
      rw [List.take_add_one, hi] at hv
      rcases List.mem_append.mp hv with hv | hv
      · exact hn v hv
      · simp at hv; subst hv; exact hw
    rw [typeLoopD]
    rcases hx : hasType E d w with _ | (_ | _)
    · refine good_withOut fun _ _ => good_seq (good_serr hr (.typeName ht hi (unknown_type hx)) (by simp [Ctx.at])) ?_
      exact ih (i + 1) hd' (more (by rw [hx]; nofun))
    · exact ih (i + 1) hd' (more (by rw [hx]; nofun))
    · exact good_ok

theorem good_type (hr : Reach E S X k c.schema (.map m) c.data d) : Good E S X c (vTypeD E c m d) := by
  refine good_kw fun t ht => ?_
  cases t <;> exact good_typeLoop hr ht _ 0 rfl nofun

theorem good_ref (hrec : RecOk E S X k rec) (hr : Reach E S X k c.schema (.map m) c.data d) : Good E S X c (vRefD E rec c m d) := by
  unfold vRefD
  cases hv : AMap.get m kRef with
  | none => exact good_ok
  | some r =>
    cases r with
    | str s => exact good_withOut fun t ht => good_move hrec hr (.ref hv ht) (List.append_nil _).symm (List.append_nil _).symm
    | _ => exact good_ok

theorem good_body (hrec : RecOk E S X k rec) (hr : Reach E S X k c.schema (.map m) c.data d) : Good E S X c (bodyD E rec c m d) :=
  good_seq (good_ref hrec hr) (good_seq (good_type hr) (good_seq (good_enum hr) (good_seq (good_numeric hr) (good_seq (good_string hr)
    (good_seq (good_array hrec hr) (good_seq (good_object hrec hr) (good_combinations hrec hr)))))))

theorem good_validate (fuel : Nat) : ∀ (k : Nat) (c : Ctx) (s d : Val), fuel + k = recursionLimit + 1 →
    Reach E S X k c.schema s c.data d → Good E S X c (validateD E fuel k c s d) := by
  induction fuel with
  | zero => intro k c s d _ _; trivial
  | succ fuel ih =>
    intro k c s d hf hr
    unfold validateD
    split
    · rename_i hk
      have hk : k = recursionLimit := by omega
      subst hk
      refine ⟨.inr (List.cons_ne_nil _ _), Nat.zero_le _, nofun, fun p hp => ?_⟩
      cases List.mem_singleton.mp hp
      exact ⟨List.prefix_rfl, .inr ⟨s, _, d, hr⟩⟩
    · cases s with
      | map m =>
        refine good_body (fun c s d h => ⟨ih (k + 1) c s d (by omega) h, ?_⟩) hr
        rw [forget_validate, judge, show recursionLimit + 1 - (k + 1) = fuel by omega]
      | _ => exact good_ok

end Verif.Schema
