import Verif.Ext.FlattenProps
/-!
# C43: flatten, then expand — the round trip
-/

namespace Verif.Flat
open Verif Verif.Ext

/-! ## The text of a path is read back -/

/-- A key without a character that has a meaning in a path, and not empty. -/
def PlainKey (d : UInt8) (k : Bytes) : Prop :=
  k ≠ [] ∧ ∀ c ∈ k, c ≠ d ∧ c ≠ 0x2f ∧ c ≠ 0x5b ∧ c ≠ 0x5d ∧ c ≠ 0x5c

def PlainPathK (d : UInt8) (q : VPath) : Prop := ∀ k, .key k ∈ q → PlainKey d k

/-- The usual parameters, with any delimiter `d` that is not a bracket or digit. -/
structure Usual (ps : FlatParams) (d : UInt8) : Prop where
  delim : ps.pathDelimiter = [d]
  pre : ps.pathPrefix = [] ∨ ps.pathPrefix = [d]
  ipre : ps.indexPrefix = [0x5b]
  isuf : ps.indexSuffix = [0x5d]
  notDigit : isDigit d = false
  notOpen : d ≠ 0x5b
  notClose : d ≠ 0x5d

theorem usual_default : Usual .default 0x2f := ⟨rfl, .inl rfl, rfl, rfl, by decide, by decide, by decide⟩

theorem slashed_append (d : Bytes) (a b : Bytes) : slashed d (a ++ b) = slashed d a ++ slashed d b := List.map_append

theorem slashed_none {d : UInt8} {a : Bytes} (h : ∀ c ∈ a, c ≠ d) : slashed [d] a = a := by
  simp only [slashed]
  refine (List.map_congr_left fun c hc => ?_).trans (List.map_id a)
  rw [if_neg (by simpa using h c hc)]
  rfl

theorem escChar_plain {d : UInt8} {k : Bytes} (h : PlainKey d k) : k.flatMap PathM.escChar = k := by
  have : ∀ l : Bytes, (∀ c ∈ l, c ≠ d ∧ c ≠ 0x2f ∧ c ≠ 0x5b ∧ c ≠ 0x5d ∧ c ≠ 0x5c) → l.flatMap PathM.escChar = l := by
    intro l hl
    induction l with
    | nil => rfl
    | cons c l ih =>
      obtain ⟨_, h1, h2, h3, h4⟩ := hl c (by simp)
      rw [List.flatMap_cons, ih (fun c hc => hl c (by simp [hc]))]
      simp [PathM.escChar, h1, h2, h3, h4]
  exact this k h.2

theorem slashed_below {ps : FlatParams} {d : UInt8} (hu : Usual ps d) (q : VPath) (hq : PlainPathK d q) :
    slashed [d] (below ps q) = q.flatMap PathM.elemString := by
  induction q with
  | nil => rfl
  | cons e q ih =>
    have ih := ih (fun k hk => hq k (by simp [hk]))
    cases e with
    | key k =>
      have hk := hq k (by simp)
      simp only [below, slashed_append, ih, hu.delim, List.flatMap_cons, PathM.elemString, escChar_plain hk]
      rw [slashed_none (fun c hc => (hk.2 c hc).1)]
      simp [slashed]
    | index i =>
      simp only [below, slashed_append, ih, hu.ipre, hu.isuf, List.flatMap_cons, PathM.elemString]
      rw [slashed_none (a := natDec i.toNat) (fun c hc e => by
        have := natDec_all_digits _ c hc
        rw [e, hu.notDigit] at this; cases this),
        slashed_none (a := [0x5b]) (by simpa using Ne.symm hu.notOpen),
        slashed_none (a := [0x5d]) (by simpa using Ne.symm hu.notClose)]
      simp

theorem parse_drop {c : UInt8} {r : Bytes} (h1 : c ≠ 0x2f) (h2 : c ≠ 0x5b) (h3 : c ≠ 0x5c) :
    PathM.parsePath (c :: r) = PathM.parsePath (0x2f :: c :: r) := by
  have e1 : PathM.step .init c = .ok { PathM.PSt.init with frag := [c], key := true } := by
    simp [PathM.step, PathM.PSt.init, h1, h2]
  have e2 : PathM.step .init 0x2f = .ok { PathM.PSt.init with frag := [], key := true } := by
    simp [PathM.step, PathM.PSt.init]
  have e3 : PathM.step { PathM.PSt.init with frag := [], key := true } c =
      .ok { PathM.PSt.init with frag := [c], key := true } := by
    simp [PathM.step, PathM.PSt.init, h1, h2, h3]
  simp only [PathM.parsePath, PathM.run, e1, e2, e3, Out.bind_ok]

theorem parse_flatText {ps : FlatParams} {d : UInt8} (hu : Usual ps d) (k : Bytes) (q : VPath)
    (hq : PlainPathK d (.key k :: q)) :
    PathM.parsePath (slashed ps.pathDelimiter (flatText ps (.key k :: q))) = .ok (.key k :: q) := by
  have hk := hq k (by simp)
  have hlast : (PathElem.key k :: q).getLast? ≠ some (.key []) := by
    intro h
    exact (hq [] (List.mem_of_getLast? h)).1 rfl
  have hp := PathM.parsePath_pathString _ hlast
  have hs : PathM.pathString (.key k :: q) = 0x2f :: (k ++ q.flatMap PathM.elemString) := by
    simp only [PathM.pathString, List.flatMap_cons, PathM.elemString, escChar_plain hk]
    rfl
  rw [hs] at hp
  simp only [hu.delim, flatText, slashed_append, slashed_below hu q (fun k hk => hq k (by simp [hk]))]
  rw [slashed_none (a := k) (fun c hc => (hk.2 c hc).1)]
  rcases hu.pre with h | h
  · rw [h]
    cases k with
    | nil => exact absurd rfl hk.1
    | cons c k =>
      obtain ⟨_, h1, h2, h3, h4⟩ := hk.2 c (by simp)
      exact (parse_drop h1 h2 h4).trans hp
  · rw [h]
    have : slashed [d] [d] = [0x2f] := by simp [slashed]
    rw [this]
    exact hp

/-! ## Entries of the flat form -/

def setAll (f : List (Bytes × Val)) : List (Bytes × Val) → List (Bytes × Val)
  | [] => f
  | x :: r => setAll (AMap.set f x.1 x.2) r

theorem putAll_map (f L : List (Bytes × Val)) : putAll (.map f) L = .map (setAll f L) := by
  induction L generalizing f with
  | nil => rfl
  | cons x L ih => exact ih _

theorem putAll_null {L : List (Bytes × Val)} (h : L ≠ []) : putAll .null L = .map (setAll [] L) := by
  cases L with
  | nil => exact absurd rfl h
  | cons x L => exact putAll_map [x] L

theorem mem_setAll {f L : List (Bytes × Val)} {x : Bytes × Val} (h : x ∈ setAll f L) : x ∈ f ∨ x ∈ L := by
  induction L generalizing f with
  | nil => exact .inl h
  | cons y L ih =>
    rcases ih h with h | h
    · rcases AMap.mem_set h with rfl | h
      · exact .inr (by simp)
      · exact .inl h
    · exact .inr (by simp [h])

theorem get_setAll_other {f L : List (Bytes × Val)} {k : Bytes} (h : ∀ x ∈ L, x.1 ≠ k) :
    AMap.get (setAll f L) k = AMap.get f k := by
  induction L generalizing f with
  | nil => rfl
  | cons y L ih =>
    rw [setAll, ih (fun x hx => h x (by simp [hx])), AMap.get_set_other _ _ _ _ (Ne.symm (h y (by simp)))]

theorem get_setAll {f L : List (Bytes × Val)} (hfun : ∀ a ∈ L, ∀ b ∈ L, a.1 = b.1 → a.2 = b.2) {x : Bytes × Val}
    (hx : x ∈ L) : AMap.get (setAll f L) x.1 = some x.2 := by
  induction L generalizing f x with
  | nil => cases hx
  | cons y L ih =>
    have hfun' : ∀ a ∈ L, ∀ b ∈ L, a.1 = b.1 → a.2 = b.2 := fun a ha b hb => hfun a (by simp [ha]) b (by simp [hb])
    rcases List.mem_cons.mp hx with rfl | hx
    · by_cases h : ∃ z ∈ L, z.1 = x.1
      · obtain ⟨z, hz, he⟩ := h
        rw [← he, hfun x (by simp) z (by simp [hz]) he.symm]
        exact ih hfun' hz
      · rw [setAll, get_setAll_other (fun z hz he => h ⟨z, hz, he⟩), AMap.get_set_self]
    · exact ih hfun' hx

/-! ## Values on the way to another -/

/-- What the representation of a map or list guarantees. -/
def TopOk : Val → Prop
  | .map a => AMap.Sorted a
  | .list xs => xs.length < 2 ^ 32
  | _ => True

/-- `t` is `w` with some parts still missing or null. -/
inductive Part : Val → Val → Prop
  | null (w) : Part .null w
  | refl (w) : Part w w
  | node {t w} : t.ty = w.ty → TopOk t → (∀ e x, getElem? t e = some x → getElem? w e ≠ none) →
      (∀ e x y, getElem? t e = some x → getElem? w e = some y → Part x y) → Part t w

theorem Part.child {t w tc wc : Val} {e : PathElem} (h : Part t w) (h1 : getElem? t e = some tc)
    (h2 : getElem? w e = some wc) : Part tc wc := by
  cases h with
  | null => rw [getElem?_null] at h1; cases h1
  | refl => rw [h1] at h2; cases h2; exact .refl _
  | node _ _ _ h => exact h e _ _ h1 h2

theorem topOk_put {t c : Val} (h : TopOk t) (e : PathElem) : TopOk (putElem t e c) := by
  cases e <;> cases t <;> first | exact h | exact AMap.sorted_set h _ _ | simpa [putElem, TopOk] using h

theorem topOk_of {v : Val} (hw : v.WF) (hf : ListsFit v) : TopOk v := by
  cases v <;> first | trivial | exact wf_sorted hw | exact hf.here _ rfl

theorem Part.put {t w tc wc c : Val} {e : PathElem} (hw : w.WF) (hf : ListsFit w) (h : Part t w)
    (h1 : getElem? t e = some tc) (h2 : getElem? w e = some wc) (hc : Part c wc) : Part (putElem t e c) w := by
  have ht : t.ty = w.ty ∧ TopOk t ∧ ∀ e x, getElem? t e = some x → getElem? w e ≠ none := by
    cases h with
    | null => rw [getElem?_null] at h1; cases h1
    | refl => exact ⟨rfl, topOk_of hw hf, fun e x h => by rw [h]; nofun⟩
    | node a b c _ => exact ⟨a, b, c⟩
  refine .node (by rw [putElem_ty]; exact ht.1) (topOk_put ht.2.1 e) ?_ ?_
  · intro e' x hx
    by_cases he : e' = e
    · subst he; rw [h2]; nofun
    · rw [getElem?_putElem_other he] at hx; exact ht.2.2 e' x hx
  · intro e' x y hx hy
    by_cases he : e' = e
    · subst he
      rw [getElem?_putElem_self h1] at hx
      rw [h2] at hy
      cases hx; cases hy
      exact hc
    · rw [getElem?_putElem_other he] at hx
      exact h.child hx hy

theorem container_of {v c : Val} {e : PathElem} (h : getElem? v e = some c) : v.ty = e.containerTy := by
  cases e <;> cases v <;> first | rfl | cases h

theorem Part.set {t w wc x : Val} {e : PathElem} (h : Part t w) (h1 : getElem? t e = none)
    (h2 : getElem? w e = some wc) (hx : Part x wc) (hm : e ≠ .index 0xFFFFFFFF) :
    ∃ t', setElem t e x = (t', none) ∧ Part t' w ∧ getElem? t' e = some x := by
  have hty : t.ty = .null ∨ t.ty = e.containerTy := by
    cases h with
    | null => exact .inl rfl
    | refl => rw [h1] at h2; cases h2
    | node a => exact .inr (a.trans (container_of h2))
  have htop : TopOk t := by
    cases h with
    | null => trivial
    | refl => rw [h1] at h2; cases h2
    | node _ b => exact b
  cases hs : setElem t e x with
  | mk t' er =>
    cases er with
    | some er =>
      obtain ⟨_, _, h3, h4⟩ := setElem_err hs hm
      rcases hty with h | h
      · exact absurd h h3
      · exact absurd h h4
    | none =>
      obtain ⟨g1, g2, _, g4⟩ := setElem_ok hs
      have htop' : TopOk t' := by
        cases e with
        | key k =>
          cases t <;> simp only [setElem, setKey, Prod.mk.injEq, reduceCtorEq, and_false, and_true] at hs
          · subst hs; exact ⟨nofun, trivial⟩
          · subst hs; exact AMap.sorted_set htop _ _
        | index i =>
          have hi : i.toNat + 1 < 2 ^ 32 := by
            have h1 := i.toNat_lt
            have h2 : i.toNat ≠ 0xFFFFFFFF := fun h => hm (by
              rw [show i = 0xFFFFFFFF from UInt32.toNat_inj.mp (by rw [h]; rfl)])
            omega
          cases t <;> simp only [setElem, setIndex, Prod.mk.injEq, reduceCtorEq, and_false] at hs
          · obtain ⟨ys, rfl, hl, n, rfl, h0, h1⟩ := setIndexList_ok hs
            have := h1 (by simp)
            simp only [TopOk, List.length_set, List.length_append, List.length_replicate]
            omega
          · obtain ⟨ys, rfl, hl, n, rfl, h0, h1⟩ := setIndexList_ok hs
            rename_i xs _ _
            simp only [TopOk] at htop
            simp only [TopOk, List.length_set, List.length_append, List.length_replicate]
            rcases Nat.lt_or_ge i.toNat xs.length with h | h
            · have := h0 h; omega
            · have := h1 h; omega
      -- an element other than the one stored was there before, or is padding before it
      have hother : ∀ e' z, e' ≠ e → getElem? t' e' = some z → getElem? t e' = some z ∨
          (z = .null ∧ getElem? w e' ≠ none) := by
        intro e' z he hz
        rcases g4 e' he with h | ⟨_, h, i, j, rfl, rfl, hij⟩
        · exact .inl (h.symm.trans hz)
        · refine .inr ⟨by rw [hz] at h; cases h; rfl, ?_⟩
          cases w with
          | list ys =>
            have hlen : i.toNat < ys.length := getElem?_lt (xs := ys) h2
            have : j.toNat < i.toNat := UInt32.lt_iff_toNat_lt.mp hij
            show ys[j.toNat]? ≠ none
            rw [List.getElem?_eq_getElem (by omega)]; nofun
          | _ => cases h2
      have hwne : ∀ e' z, getElem? t e' = some z → getElem? w e' ≠ none := by
        intro e' z hz
        cases h with
        | null => rw [getElem?_null] at hz; cases hz
        | refl => rw [hz]; nofun
        | node _ _ c _ => exact c e' z hz
      refine ⟨t', rfl, .node (g2.trans (container_of h2).symm) htop' ?_ ?_, g1⟩
      · intro e' z hz
        by_cases he : e' = e
        · subst he; rw [h2]; nofun
        · rcases hother e' z he hz with h' | ⟨_, h'⟩
          · exact hwne e' z h'
          · exact h'
      · intro e' z y hz hy
        by_cases he : e' = e
        · subst he
          rw [g1] at hz; rw [h2] at hy
          cases hz; cases hy
          exact hx
        · rcases hother e' z he hz with h' | ⟨rfl, _⟩
          · exact h.child h' hy
          · exact .null _

/-- Writing a part of the target on the way to it. -/
theorem Part.setPath {t w x : Val} {q : VPath} (h : Part t w) (hw : w.WF) (hf : ListsFit w)
    (hx : getPath? w q = some x) (hm : NoMaxIndex q) : ∃ t', Verif.setPath t q x = (t', none) ∧ Part t' w := by
  induction q generalizing t w with
  | nil => cases hx; exact ⟨_, rfl, .refl _⟩
  | cons e q ih =>
    have hme : e ≠ .index 0xFFFFFFFF := fun h => hm (by simp [h])
    have hmq : NoMaxIndex q := fun h => hm (by simp [h])
    rw [getPath?_cons] at hx
    cases hwe : getElem? w e with
    | none => rw [hwe] at hx; cases hx
    | some wc =>
      rw [hwe] at hx
      have hx : getPath? wc q = some x := hx
      have ih := fun tc (h : Part tc wc) => ih h (getElem?_wf hw hwe) (hf.child hwe) hx hmq
      rw [Verif.setPath]
      cases hte : getElem? t e with
      | some tc =>
        obtain ⟨c', h1, h2⟩ := ih tc (h.child hte hwe)
        simp only [h1]
        exact ⟨_, rfl, h.put hw hf hte hwe h2⟩
      | none =>
        simp only []
        by_cases hq : q = []
        · subst hq
          cases hx
          rw [if_pos rfl]
          obtain ⟨t', h1, h2, _⟩ := h.set hte hwe (.refl _) hme
          exact ⟨t', h1, h2⟩
        · rw [if_neg hq]
          obtain ⟨t', h1, h2, h3⟩ := h.set hte hwe (.null _) hme
          obtain ⟨c', h4, h5⟩ := ih .null (.null _)
          simp only [h1, h4]
          exact ⟨_, rfl, h2.put hw hf h3 hwe h5⟩

/-- No list and no map in the value is empty. -/
def NoEmpty (v : Val) : Prop := ∀ q c, getPath? v q = some c → c ≠ .list [] ∧ c ≠ .map []

theorem NoEmpty.child {v c : Val} {e : PathElem} (h : NoEmpty v) (hc : getElem? v e = some c) : NoEmpty c :=
  fun q d hd => h (e :: q) d (by rw [getPath?_cons, hc]; exact hd)

theorem some_leaf (ps : FlatParams) (n : Nat) (v : Val) (hd : depth v ≤ n) (hf : ListsFit v) (hn : NoEmpty v) :
    ∃ q x, LeafAt ps v q x := by
  induction n generalizing v with
  | zero => cases v <;> simp [depth] at hd
  | succ n ih =>
    cases ha : atom ps v with
    | true => exact ⟨_, _, .here ha⟩
    | false =>
      have go : ∀ e c, getElem? v e = some c → depth c < depth v → ∃ q x, LeafAt ps v q x := by
        intro e c hc hlt
        obtain ⟨q, x, h⟩ := ih c (by omega) (hf.child hc) (hn.child hc)
        exact ⟨_, _, .deep ha hc h⟩
      cases v with
      | list xs =>
        cases xs with
        | nil => exact absurd rfl (hn [] _ rfl).1
        | cons x xs => exact go (.index 0) x rfl (by simp only [depth, depth.depthList]; omega)
      | map m =>
        cases m with
        | nil => exact absurd rfl (hn [] _ rfl).2
        | cons x m =>
          exact go (.key x.1) x.2 (by simp [getElem?, getKey?, AMap.get]) (by simp only [depth, depth.depthMap]; omega)
      | _ => cases ha

theorem elems_ext {t w : Val} (hty : t.ty = w.ty) (ht : TopOk t) (hw : TopOk w)
    (hc : w.ty = .list ∨ w.ty = .map) (h : ∀ e, getElem? t e = getElem? w e) : t = w := by
  cases w with
  | list ys =>
    cases t with
    | list xs =>
      congr 1
      simp only [TopOk] at ht hw
      refine List.ext_getElem? fun i => ?_
      by_cases hi : i < 2 ^ 32
      · have := h (.index (UInt32.ofNat i))
        rwa [getElem?_ofNat hi, getElem?_ofNat hi] at this
      · rw [List.getElem?_eq_none (by omega), List.getElem?_eq_none (by omega)]
    | _ => cases hty
  | map b =>
    cases t with
    | map a => congr 1; exact AMap.ext ht hw fun k => h (.key k)
    | _ => cases hty
  | _ => rcases hc with h | h <;> cases h

/-- A value on the way to another that has all its leaves is the other. -/
theorem Part.full (ps : FlatParams) (n : Nat) {t w : Val} (hd : depth w ≤ n) (h : Part t w) (hw : w.WF)
    (hf : ListsFit w) (hn : NoEmpty w) (hl : ∀ q x, LeafAt ps w q x → getPath? t q = some x) : t = w := by
  induction n generalizing t w with
  | zero => cases w <;> simp [depth] at hd
  | succ n ih =>
    cases ha : atom ps w with
    | true => have := hl _ _ (.here ha); cases this; rfl
    | false =>
      have hc : w.ty = .list ∨ w.ty = .map := by
        cases w <;> first | cases ha; done | exact .inl rfl | exact .inr rfl
      have hdep : ∀ e y, getElem? w e = some y → depth y ≤ n := by
        intro e y hy
        cases w with
        | list ys => cases e with
          | key k => cases hy
          | index i => have := depth_item (xs := ys) hy; simp only [depth] at hd; omega
        | map b => cases e with
          | key k => have := depth_member (m := b) hy; simp only [depth] at hd; omega
          | index i => cases hy
        | _ => cases ha
      have hget : ∀ e y, getElem? w e = some y → ∃ tc, getElem? t e = some tc := by
        intro e y hy
        obtain ⟨q, x, hq⟩ := some_leaf ps n y (hdep e y hy) (hf.child hy) (hn.child hy)
        have := hl _ _ (.deep ha hy hq)
        rw [getPath?_cons] at this
        cases ht : getElem? t e with
        | none => rw [ht] at this; cases this
        | some tc => exact ⟨tc, rfl⟩
      have hsame : ∀ e y, getElem? w e = some y → getElem? t e = some y := by
        intro e y hy
        obtain ⟨tc, ht⟩ := hget e y hy
        have := ih (hdep e y hy) (h.child ht hy) (getElem?_wf hw hy) (hf.child hy) (hn.child hy) (fun q x hq => by
          have := hl _ _ (.deep ha hy hq)
          rw [getPath?_cons, ht] at this
          exact this)
        rw [ht, this]
      cases h with
      | refl => rfl
      | null =>
        obtain ⟨q, x, hq⟩ := some_leaf ps _ w hd hf hn
        cases hq with
        | here hb => rw [ha] at hb; cases hb
        | deep _ hy _ => obtain ⟨_, h⟩ := hget _ _ hy; rw [getElem?_null] at h; cases h
      | node h1 h2 h3 h4 =>
        refine elems_ext h1 h2 (topOk_of hw hf) hc fun e => ?_
        cases hy : getElem? w e with
        | some y => exact hsame e y hy
        | none =>
          cases ht : getElem? t e with
          | none => rfl
          | some tc => exact absurd hy (h3 e tc ht)

/-! ## Leaves of a copy -/

theorem simpleList_copy (xs : List Val) : simpleList (deepCopyList xs) = simpleList xs := by
  induction xs with
  | nil => rfl
  | cons x xs ih =>
    simp only [simpleList, deepCopyList, List.all_cons, deepCopy_ty] at ih ⊢
    rw [ih]

theorem atom_copy (ps : FlatParams) (v : Val) : atom ps (deepCopy v) = atom ps v := by
  cases v <;> first | rfl | simp only [deepCopy, atom, simpleList_copy]

theorem LeafAt.copy {ps : FlatParams} {v x : Val} {q : VPath} (h : LeafAt ps v q x) :
    LeafAt ps (deepCopy v) q (deepCopy x) := by
  induction h with
  | here ha => exact .here (by rw [atom_copy]; exact ha)
  | deep ha hc _ ih => exact .deep (by rw [atom_copy]; exact ha) (by rw [getElem?_deepCopy, hc]; rfl) ih

theorem LeafAt.of_copy {ps : FlatParams} {v y : Val} {q : VPath} (h : LeafAt ps (deepCopy v) q y) :
    ∃ x, LeafAt ps v q x ∧ y = deepCopy x := by
  induction q generalizing v with
  | nil => cases h with | here ha => exact ⟨v, .here (by rwa [atom_copy] at ha), rfl⟩
  | cons e q ih =>
    cases h with
    | deep ha hc hl =>
      rw [getElem?_deepCopy] at hc
      cases hv : getElem? v e with
      | none => rw [hv] at hc; cases hc
      | some c =>
        rw [hv] at hc; cases hc
        obtain ⟨x, h1, h2⟩ := ih hl
        exact ⟨x, .deep (by rwa [atom_copy] at ha) hv h1, h2⟩

theorem fits_copy {v : Val} (h : ListsFit v) : ListsFit (deepCopy v) := by
  intro q xs hq
  rw [getPath?_deepCopy] at hq
  cases hc : getPath? v q with
  | none => rw [hc] at hq; cases hq
  | some c =>
    rw [hc] at hq
    cases c <;> cases hq
    rename_i ys
    have := h q ys hc
    have hl : ∀ l : List Val, (deepCopyList l).length = l.length := by
      intro l; induction l with
      | nil => rfl
      | cons a l ih => simp [deepCopyList, ih]
    rw [hl]; exact this

theorem noEmpty_copy {v : Val} (h : NoEmpty v) : NoEmpty (deepCopy v) := by
  intro q d hq
  rw [getPath?_deepCopy] at hq
  cases hc : getPath? v q with
  | none => rw [hc] at hq; cases hq
  | some c =>
    rw [hc] at hq
    cases hq
    obtain ⟨h1, h2⟩ := h q c hc
    constructor
    · intro e; cases c with
      | list xs => cases xs with
        | nil => exact h1 rfl
        | cons _ _ => cases e
      | _ => cases e
    · intro e; cases c with
      | map xs => cases xs with
        | nil => exact h2 rfl
        | cons _ _ => cases e
      | _ => cases e

/-! ## Expanding writes all leaves -/

theorem noMax_of_fit {v x : Val} {q : VPath} (hf : ListsFit v) (h : getPath? v q = some x) : NoMaxIndex q := by
  induction q generalizing v with
  | nil => nofun
  | cons e q ih =>
    rw [getPath?_cons] at h
    cases hc : getElem? v e with
    | none => rw [hc] at h; cases h
    | some c =>
      rw [hc] at h
      intro hm
      rcases List.mem_cons.mp hm with rfl | hm
      · cases v with
        | list xs =>
          have h1 : (0xFFFFFFFF : UInt32).toNat < xs.length := getElem?_lt (xs := xs) hc
          have h2 := hf.here xs rfl
          have h3 : (0xFFFFFFFF : UInt32).toNat = 2 ^ 32 - 1 := by decide
          omega
        | _ => cases hc
      · exact ih (hf.child hc) h hm

theorem expandLoop_run {ps : FlatParams} {d : UInt8} (hu : Usual ps d) {w : Val} (hw : w.WF) (hf : ListsFit w)
    (L : List (Bytes × Val))
    (hL : ∀ y ∈ L, ∃ q, LeafAt ps w q y.2 ∧ PathM.parsePath (slashed ps.pathDelimiter y.1) = .ok q)
    (t : Val) (ht : Part t w) :
    ∃ t', expandLoop ps.pathDelimiter t L = (t', .ok ()) ∧ Part t' w ∧
      (∀ q x, LeafAt ps w q x → getPath? t q = some x → getPath? t' q = some x) ∧
      ∀ y ∈ L, ∀ q, PathM.parsePath (slashed ps.pathDelimiter y.1) = .ok q → getPath? t' q = some y.2 := by
  induction L generalizing t with
  | nil => exact ⟨t, rfl, ht, fun _ _ _ h => h, nofun⟩
  | cons y L ih =>
    obtain ⟨q, hq, hp⟩ := hL y (by simp)
    obtain ⟨t1, h1, h2⟩ := ht.setPath hw hf hq.get (noMax_of_fit hf hq.get)
    obtain ⟨t', i1, i2, i3, i4⟩ := ih (fun y hy => hL y (by simp [hy])) t1 h2
    have hgot : getPath? t1 q = some y.2 := by
      have := setPath_below h1 []
      rw [List.append_nil] at this
      exact this
    refine ⟨t', ?_, i2, ?_, ?_⟩
    · simp only [expandLoop, expandOne, hp, h1]
      simp only [hu.delim, List.length_singleton, ne_eq, not_true_eq_false, if_false]
      rw [← hu.delim]
      exact i1
    · intro q' x' hl hg
      refine i3 q' x' hl ?_
      rcases hq.diverge hl with rfl | hdv
      · have := hq.get.symm.trans hl.get
        cases this
        exact hgot
      · rcases setPath_frame h1 hdv with h | ⟨h, _⟩
        · exact h.trans hg
        · rw [h] at hg; cases hg
    · intro z hz q' hp'
      rcases List.mem_cons.mp hz with rfl | hz
      · rw [hp] at hp'; cases hp'
        exact i3 q _ hq hgot
      · exact i4 z hz q' hp'

/-- Every key at every level is plain. -/
def PlainTree (d : UInt8) (v : Val) : Prop := ∀ q c, getPath? v q = some c → PlainPathK d q

/-- **C43.** Flattening a map and expanding the result gives back (a copy of) the map, when no key
is empty or has a character with a meaning in paths and no container is empty; with the default
parameters, with simple lists kept whole, and with any other delimiter.  Partial: the English
property does not exclude the empty key, for which it fails (`flatten_empty_key_false`). -/
theorem flatten_expand_partial (ps : FlatParams) (d : UInt8) (hu : Usual ps d) (m : List (Bytes × Val))
    (hw : (Val.map m).WF) (hf : ListsFit (.map m)) (hn : NoEmpty (.map m)) (hk : PlainTree d (.map m)) :
    ∃ flat, flattenPath ps (.map m) = (flat, none) ∧ expandPath ps flat = (deepCopy (.map m), .ok ()) := by
  have hkey : ∀ x ∈ m, x.1 ≠ [] := fun x hx => by
    have hg : getPath? (.map m) [.key x.1] = some x.2 := by
      rw [getPath?_cons, show getElem? (.map m) (.key x.1) = some x.2 from AMap.get_of_mem (wf_sorted hw) hx]; rfl
    exact (hk _ _ hg x.1 (by simp)).1
  refine ⟨_, flattenPath_eq ps m hw hf hkey, ?_⟩
  have hmem := mem_leaves ps (.map m) hw hf
  -- every leaf path starts with a key and its text is read back
  have hparse : ∀ q x, LeafAt ps (.map m) q x →
      PathM.parsePath (slashed ps.pathDelimiter (flatText ps q)) = .ok q := by
    intro q x h
    have hpl := hk q x h.get
    cases h with
    | here ha => cases ha
    | @deep _ e c q _ ha hc hl =>
      cases e with
      | index i => cases hc
      | key k => exact parse_flatText hu k q hpl
  have hne : (leaves ps (.map m)).map (fun y => (flatText ps y.1, deepCopy y.2)) ≠ [] := by
    obtain ⟨q, x, h⟩ := some_leaf ps _ (.map m) (Nat.le_refl _) hf hn
    intro he
    have := (hmem q x).mpr h
    rw [List.map_eq_nil_iff] at he
    rw [he] at this; cases this
  rw [putAll_null hne]
  simp only [expandPath]
  have hfun : ∀ a ∈ (leaves ps (.map m)).map (fun y => (flatText ps y.1, deepCopy y.2)),
      ∀ b ∈ (leaves ps (.map m)).map (fun y => (flatText ps y.1, deepCopy y.2)), a.1 = b.1 → a.2 = b.2 := by
    intro a ha b hb he
    simp only [List.mem_map] at ha hb
    obtain ⟨⟨q, x⟩, h1, rfl⟩ := ha
    obtain ⟨⟨q', x'⟩, h2, rfl⟩ := hb
    have l1 := (hmem q x).mp h1
    have l2 := (hmem q' x').mp h2
    have p1 := hparse q x l1
    have p2 := hparse q' x' l2
    dsimp only at he ⊢
    rw [he, p2] at p1
    cases p1
    have := l1.get.symm.trans l2.get
    cases this
    rfl
  have hsub : ∀ y ∈ setAll [] ((leaves ps (.map m)).map (fun y => (flatText ps y.1, deepCopy y.2))),
      ∃ q, LeafAt ps (deepCopy (.map m)) q y.2 ∧ PathM.parsePath (slashed ps.pathDelimiter y.1) = .ok q := by
    intro y hy
    rcases mem_setAll hy with h | h
    · cases h
    · simp only [List.mem_map] at h
      obtain ⟨⟨q, x⟩, h1, rfl⟩ := h
      have l1 := (hmem q x).mp h1
      exact ⟨q, l1.copy, hparse q x l1⟩
  obtain ⟨t', h1, h2, _, h4⟩ := expandLoop_run hu (deepCopy_wf _ hw) (fits_copy hf) _ hsub .null (.null _)
  rw [h1]
  congr 1
  refine h2.full ps _ (Nat.le_refl _) (deepCopy_wf _ hw) (fits_copy hf) (noEmpty_copy hn) ?_
  intro q y hl
  obtain ⟨x, hx, rfl⟩ := hl.of_copy
  have hin : (flatText ps q, deepCopy x) ∈ (leaves ps (.map m)).map (fun y => (flatText ps y.1, deepCopy y.2)) :=
    List.mem_map.mpr ⟨(q, x), (hmem q x).mpr hx, rfl⟩
  have := AMap.get_mem (get_setAll (f := []) hfun hin)
  exact h4 _ this q (hparse q x hx)

/-- The same in terms of the library's equality. -/
theorem flatten_expand_equal_partial (p : Nat) (ps : FlatParams) (d : UInt8) (hu : Usual ps d) (m : List (Bytes × Val))
    (hw : (Val.map m).WF) (hf : ListsFit (.map m)) (hn : NoEmpty (.map m)) (hk : PlainTree d (.map m)) :
    ∃ flat v', flattenPath ps (.map m) = (flat, none) ∧ expandPath ps flat = (v', .ok ()) ∧
      veq p (.map m) v' = true := by
  obtain ⟨flat, h1, h2⟩ := flatten_expand_partial ps d hu m hw hf hn hk
  exact ⟨flat, _, h1, h2, veq_deepCopy p _⟩

/-- `{"": 1}` flattens to the bare number 1 (an empty path text means "the whole result"), and comes
back as 1. -/
theorem flatten_empty_key_false :
    flattenPath .default (.map [([], .int 1)]) = (.int 1, none) ∧
    expandPath .default (.int 1) = (.int 1, .ok ()) := ⟨rfl, rfl⟩

/-- An empty container leaves no entry behind: `{"a": {}, "b": 1}` comes back as `{"b": 1}`. -/
theorem flatten_empty_container_false :
    flattenPath .default (.map [([0x61], .map []), ([0x62], .int 1)]) = (.map [([0x62], .int 1)], none) ∧
    expandPath .default (.map [([0x62], .int 1)]) = (.map [([0x62], .int 1)], .ok ()) := ⟨rfl, rfl⟩

/-- A key with a slash comes back as two keys: `{"a/b": 1}` as `{"a": {"b": 1}}`. -/
theorem flatten_slash_false :
    flattenPath .default (.map [([0x61, 0x2f, 0x62], .int 1)]) = (.map [([0x61, 0x2f, 0x62], .int 1)], none) ∧
    expandPath .default (.map [([0x61, 0x2f, 0x62], .int 1)]) = (.map [([0x61], .map [([0x62], .int 1)])], .ok ()) := ⟨rfl, rfl⟩

/-- `{"a": [1, {"b": "x"}], "c": null}`. -/
def nested : List (Bytes × Val) := [([0x61], .list [.int 1, .map [([0x62], .str [0x78])]]), ([0x63], .null)]

theorem nested_paths (q : VPath) (c : Val) (h : getPath? (.map nested) q = some c) :
    (q = [] ∧ c = .map nested) ∨ (q = [.key [0x61]] ∧ c = .list [.int 1, .map [([0x62], .str [0x78])]]) ∨
    (q = [.key [0x61], .index 0] ∧ c = .int 1) ∨ (q = [.key [0x61], .index 1] ∧ c = .map [([0x62], .str [0x78])]) ∨
    (q = [.key [0x61], .index 1, .key [0x62]] ∧ c = .str [0x78]) ∨ (q = [.key [0x63]] ∧ c = .null) := by
  have hleaf : ∀ (v : Val), v.ty ≠ .list → v.ty ≠ .map → ∀ q, getPath? v q = some c → q = [] ∧ c = v := by
    intro v h1 h2 q h
    cases q with
    | nil => cases h; exact ⟨rfl, rfl⟩
    | cons e q =>
      rw [getPath?_cons] at h
      cases v <;> cases e <;> first | cases h; done | exact absurd rfl h1 | exact absurd rfl h2
  cases q with
  | nil => cases h; exact .inl ⟨rfl, rfl⟩
  | cons e q =>
    rw [getPath?_cons] at h
    cases e with
    | index i => cases h
    | key k =>
      simp only [getElem?, getKey?, nested, AMap.get] at h
      split at h
      · rename_i hk
        cases q with
        | nil => cases h; exact .inr (.inl ⟨by rw [hk], rfl⟩)
        | cons e q =>
          have h : getPath? (.list [.int 1, .map [([0x62], .str [0x78])]]) (e :: q) = some c := h
          rw [getPath?_cons] at h
          cases e with
          | key k => cases h
          | index i =>
            simp only [getElem?, getIndex?] at h
            rcases Nat.lt_or_ge i.toNat 2 with hi | hi
            · rcases (by omega : i.toNat = 0 ∨ i.toNat = 1) with h0 | h0
              · rw [h0] at h
                obtain ⟨rfl, rfl⟩ := hleaf (.int 1) (by simp [Val.ty]) (by simp [Val.ty]) q h
                rw [hk, show i = 0 from UInt32.toNat_inj.mp h0]
                exact .inr (.inr (.inl ⟨rfl, rfl⟩))
              · rw [h0] at h
                rw [hk, show i = 1 from UInt32.toNat_inj.mp h0]
                have h : getPath? (.map [([0x62], .str [0x78])]) q = some c := h
                cases q with
                | nil => cases h; exact .inr (.inr (.inr (.inl ⟨rfl, rfl⟩)))
                | cons e q =>
                  rw [getPath?_cons] at h
                  cases e with
                  | index i => cases h
                  | key k =>
                    simp only [getElem?, getKey?, AMap.get] at h
                    split at h
                    · rename_i hk
                      obtain ⟨rfl, rfl⟩ := hleaf (.str [0x78]) (by simp [Val.ty]) (by simp [Val.ty]) q h
                      rw [hk]
                      exact .inr (.inr (.inr (.inr (.inl ⟨rfl, rfl⟩))))
                    · cases h
            · rw [List.getElem?_eq_none (by simpa using hi)] at h; cases h
      · split at h
        · rename_i hk
          obtain ⟨rfl, rfl⟩ := hleaf .null (by simp [Val.ty]) (by simp [Val.ty]) q h
          rw [hk]
          exact .inr (.inr (.inr (.inr (.inr ⟨rfl, rfl⟩))))
        · cases h

/-- The document meets the hypotheses. -/
example : ∃ flat, flattenPath .default (.map nested) = (flat, none) ∧
    expandPath .default flat = (deepCopy (.map nested), .ok ()) := by
  apply flatten_expand_partial .default 0x2f usual_default
  · simp [nested, Val.WF, WFList, WFMap, AMap.Sorted, AMap.above]; decide
  · intro q xs h
    rcases nested_paths q _ h with ⟨_, h⟩ | ⟨_, h⟩ | ⟨_, h⟩ | ⟨_, h⟩ | ⟨_, h⟩ | ⟨_, h⟩ <;> cases h
    simp
  · intro q c h
    rcases nested_paths q _ h with ⟨_, h⟩ | ⟨_, h⟩ | ⟨_, h⟩ | ⟨_, h⟩ | ⟨_, h⟩ | ⟨_, h⟩ <;> subst h <;>
      exact ⟨nofun, nofun⟩
  · intro q c h
    rcases nested_paths q _ h with ⟨h, _⟩ | ⟨h, _⟩ | ⟨h, _⟩ | ⟨h, _⟩ | ⟨h, _⟩ | ⟨h, _⟩ <;> subst h <;> intro k hk <;>
      simp at hk
    all_goals first | subst hk; exact ⟨nofun, by simp⟩ | (rcases hk with rfl | rfl <;> exact ⟨nofun, by simp⟩)

end Verif.Flat
