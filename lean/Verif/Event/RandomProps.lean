import Verif.Event.Random
import Verif.Event.Props
/-!
# C114: random recordings are well formed, and all that can be expected occur

Specification: which values may come out (`Fit`), as a tree with announced lengths.
-/

namespace Verif.Event

/-- A word: one to ninety-nine printable characters that are neither digits nor blanks nor '~'. -/
def Word (s : Bytes) : Prop := 1 ≤ s.length ∧ s.length < 100 ∧ ∀ c ∈ s, 33 ≤ c.toNat ∧ c.toNat ≤ 125 ∧ ¬ (48 ≤ c.toNat ∧ c.toNat ≤ 57)

/-- The scalars that may come out; `dis` are the kinds not wanted. -/
def FitAtom (prod : Nat → Nat → UInt64) (dis : Nat) (nan : Bool) : Atom → Prop
  | .null => dis.testBit 6 = false
  | .bool _ => dis.testBit 7 = false
  | .str s => dis.testBit 8 = false ∧ Word s
  | .int i => dis.testBit 9 = false ∧ -1073741823 ≤ i.toInt ∧ i.toInt ≤ 1073741824
  | .uint u => dis.testBit 10 = false ∧ u.toNat ≤ 2147483647
  | .flt d => dis.testBit 11 = false ∧
    ((∃ r1 r2, r1 ≤ 2147483647 ∧ r2 ≤ 2147483647 ∧ d = prod r1 r2) ∨ (nan = true ∧ d ∈ [0xFFF0000000000000, 0x7FF0000000000000, 0x7FF8000000000000, 0x7FF4000000000000]))
  | .blob _ => False

/-- The values that may come out, nested at most `d` deep: containers have fewer than ten elements, as announced, and keys are words. -/
def Fit (prod : Nat → Nat → UInt64) (dis : Nat) (nan : Bool) : Nat → Tree → Prop
  | _, .atom a => FitAtom prod dis nan a
  | 0, _ => False
  | d + 1, .list n xs => dis.testBit 4 = false ∧ n = xs.length ∧ xs.length < 10 ∧ ∀ x ∈ xs, Fit prod dis nan d x
  | d + 1, .map n kvs => dis.testBit 2 = false ∧ n = kvs.length ∧ kvs.length < 10 ∧
    ∀ kv ∈ kvs, (∃ w, kv.1 = .atom (.str w) ∧ Word w) ∧ Fit prod dis nan d kv.2

/-- Numbers `rand()` can return. -/
def Rands (rs : Rnd) : Prop := ∀ r ∈ rs, r ≤ 2147483647

/-- Not a scalar. -/
def Tree.isContainer : Tree → Bool
  | .atom _ => false
  | _ => true

/-- The calls for a value, in a document or not. -/
def inDoc (doc : Bool) (cs : List Call) : List Call := if doc then .beginDoc :: (cs ++ [.endDoc]) else cs

/-! ## Soundness -/

theorem goodChar_iff (c : UInt8) : goodChar c = true ↔ 33 ≤ c.toNat ∧ c.toNat ≤ 125 ∧ ¬ (48 ≤ c.toNat ∧ c.toNat ≤ 57) := by
  have h : (c == 126) = decide (c.toNat = 126) := by
    by_cases e : c = 126
    · subst e; rfl
    · have h2 : c.toNat ≠ 126 := fun h => e (UInt8.toNat_inj.mp h)
      simp [e, h2]
  simp only [goodChar, h, Bool.not_eq_true', Bool.or_eq_false_iff, Bool.not_eq_false', Bool.and_eq_true, decide_eq_true_eq,
    decide_eq_false_iff_not, Bool.and_eq_false_iff]
  omega

theorem chars_sound (n : Nat) : ∀ (rs : Rnd) (s : Bytes) (rs' : Rnd), randomChars n rs = some (s, rs') →
    s.length = n ∧ (∀ c ∈ s, goodChar c = true) ∧ ∀ r ∈ rs', r ∈ rs := by
  induction n with
  | zero => intro rs s rs' h; rw [randomChars] at h; cases h; exact ⟨rfl, nofun, fun _ h => h⟩
  | succ n ih =>
    intro rs
    induction rs with
    | nil => intro s rs' h; rw [randomChars] at h; cases h
    | cons r rs ih2 =>
      intro s rs' h
      rw [randomChars] at h
      split at h
      · next hg =>
        split at h
        · cases h
        · next s' rs'' h1 =>
          cases h
          obtain ⟨e1, e2, e3⟩ := ih _ _ _ h1
          refine ⟨by simp [e1], fun c hc => ?_, fun r hr => List.mem_cons_of_mem _ (e3 r hr)⟩
          rcases List.mem_cons.mp hc with rfl | hc
          · exact hg
          · exact e2 c hc
      · obtain ⟨e1, e2, e3⟩ := ih2 _ _ h
        exact ⟨e1, e2, fun r hr => List.mem_cons_of_mem _ (e3 r hr)⟩

theorem string_sound : ∀ (rs : Rnd) (s : Bytes) (rs' : Rnd), randomString rs = some (s, rs') → Word s ∧ ∀ r ∈ rs', r ∈ rs := by
  intro rs
  induction rs with
  | nil => intro s rs' h; cases h
  | cons r rs ih =>
    intro s rs' h
    rw [randomString] at h
    split at h
    · obtain ⟨e1, e2⟩ := ih _ _ h
      exact ⟨e1, fun r hr => List.mem_cons_of_mem _ (e2 r hr)⟩
    · next hr =>
      obtain ⟨e1, e2, e3⟩ := chars_sound _ _ _ _ h
      exact ⟨⟨by omega, by omega, fun c hc => (goodChar_iff c).mp (e2 c hc)⟩, fun r hr => List.mem_cons_of_mem _ (e3 r hr)⟩

theorem pick_sound (dis : Nat) : ∀ (rs : Rnd) (t : Nat) (rs' : Rnd), pickType dis rs = some (t, rs') →
    dis.testBit t = false ∧ t < 12 ∧ ∀ r ∈ rs', r ∈ rs := by
  have key : ∀ t, t < 32 → allEvents.testBit t = true → t < 12 := by decide
  intro rs
  induction rs with
  | nil => intro t rs' h; cases h
  | cons r rs ih =>
    intro t rs' h
    simp only [pickType] at h
    split at h
    · next hr =>
      cases h
      exact ⟨hr.1, key _ (Nat.mod_lt _ (by decide)) hr.2, fun r hr => List.mem_cons_of_mem _ hr⟩
    · obtain ⟨e1, e2, e3⟩ := ih _ _ h
      exact ⟨e1, e2, fun r hr => List.mem_cons_of_mem _ (e3 r hr)⟩

/-- The type is not one of the disallowed; a container only where there is room. -/
theorem type_sound {dis : Nat} {level max : Int} {rs rs' : Rnd} {t : Nat} (h : randomType dis level max rs = some (t, rs')) :
    dis.testBit t = false ∧ t < 12 ∧ (t = 2 ∨ t = 4 → level < max) ∧ ∀ r ∈ rs', r ∈ rs := by
  have hb : beginEvents.testBit 2 = true ∧ beginEvents.testBit 4 = true := by decide
  obtain ⟨h1, h2, h9⟩ := pick_sound _ _ _ _ h
  split at h1
  · rw [Nat.testBit_or, Bool.or_eq_false_iff] at h1
    refine ⟨h1.1, h2, ?_, h9⟩
    rintro (rfl | rfl)
    · rw [hb.1] at h1; cases h1.2
    · rw [hb.2] at h1; cases h1.2
  · exact ⟨h1, h2, fun _ => by omega, h9⟩

/-- What a generating function may do at a level. -/
def Sound (L : Int) (P : Tree → Prop) (g : Gen) : Prop :=
  ∀ b rs r, Rands rs → b.level = L → g b rs = some r → ∃ t rs', r = .ok (recordAll b t.calls, rs') ∧ Rands rs' ∧ P t

theorem listLoop_sound {L : Int} {P : Tree → Prop} {g : Gen} (hg : Sound L P g) : ∀ (n : Nat) (b : Buf) (rs : Rnd) (r : Out (Buf × Rnd)),
    Rands rs → b.level = L → listLoop g n b rs = some r →
    ∃ xs rs', r = .ok (recordAll b (callsList xs), rs') ∧ Rands rs' ∧ xs.length = n ∧ ∀ x ∈ xs, P x := by
  intro n
  induction n with
  | zero => intro b rs r hrs _ h; rw [listLoop] at h; cases h; exact ⟨[], rs, rfl, hrs, rfl, nofun⟩
  | succ n ih =>
    intro b rs r hrs hb h
    rw [listLoop] at h
    cases hr : g b rs with
    | none => rw [hr] at h; cases h
    | some q =>
      obtain ⟨t, rs', rfl, hrs', hP⟩ := hg b rs q hrs hb hr
      rw [hr] at h
      obtain ⟨xs, rs'', rfl, hrs'', e1, e2⟩ := ih _ _ _ hrs' (by rw [level_tree, hb]) h
      refine ⟨t :: xs, rs'', by rw [callsList, recordAll_append], hrs'', by simp [e1], fun x hx => ?_⟩
      rcases List.mem_cons.mp hx with rfl | hx
      · exact hP
      · exact e2 x hx

theorem mapLoop_sound {L : Int} {P : Tree → Prop} {g : Gen} (hg : Sound L P g) : ∀ (n : Nat) (b : Buf) (rs : Rnd) (r : Out (Buf × Rnd)),
    Rands rs → b.level = L → mapLoop g n b rs = some r →
    ∃ kvs rs', r = .ok (recordAll b (callsPairs kvs), rs') ∧ Rands rs' ∧ kvs.length = n ∧
      ∀ kv ∈ kvs, (∃ w, kv.1 = .atom (.str w) ∧ Word w) ∧ P kv.2 := by
  intro n
  induction n with
  | zero => intro b rs r hrs _ h; rw [mapLoop] at h; cases h; exact ⟨[], rs, rfl, hrs, rfl, nofun⟩
  | succ n ih =>
    intro b rs r hrs hb h
    rw [mapLoop] at h
    cases hs : randomString rs with
    | none => rw [hs] at h; cases h
    | some p =>
      obtain ⟨k, rs1⟩ := p
      rw [hs] at h
      dsimp only at h
      cases hr : g (record b (.str k)) rs1 with
      | none => rw [hr] at h; cases h
      | some q =>
        obtain ⟨hw, hsub⟩ := string_sound _ _ _ hs
        obtain ⟨t, rs', rfl, hrs', hP⟩ := hg _ rs1 q (fun r hr => hrs r (hsub r hr)) (by simp [record, hb]) hr
        rw [hr] at h
        obtain ⟨xs, rs'', rfl, hrs'', e1, e2⟩ := ih _ _ _ hrs' (by rw [level_tree]; simp [record, hb]) h
        refine ⟨(.atom (.str k), t) :: xs, rs'', ?_, hrs'', by simp [e1], fun x hx => ?_⟩
        · rw [callsPairs, recordAll_append, recordAll_append]
          rfl
        · rcases List.mem_cons.mp hx with rfl | hx
          · exact ⟨⟨k, rfl, hw⟩, hP⟩
          · exact e2 x hx

theorem list_sound {L : Int} {P : Tree → Prop} {g : Gen} (hg : Sound (L + 1) P g) :
    Sound L (fun t => ∃ n xs, t = .list n xs ∧ n = xs.length ∧ xs.length < 10 ∧ ∀ x ∈ xs, P x) (listRandom g) := by
  intro b rs r hrs hb h
  cases rs with
  | nil => cases h
  | cons n rs =>
    simp only [listRandom] at h
    cases hl : listLoop g (n % 10) (record b (.beginList (n % 10 : Nat))) rs with
    | none => rw [hl] at h; cases h
    | some q =>
      obtain ⟨xs, rs', rfl, hrs', e1, e2⟩ := listLoop_sound hg _ _ _ _ (fun r hr => hrs r (List.mem_cons_of_mem _ hr)) (by simp [record, hb]) hl
      rw [hl] at h
      cases h
      refine ⟨.list (n % 10 : Nat) xs, rs', ?_, hrs', _, _, rfl, by omega, by omega, e2⟩
      rw [Tree.calls, recordAll, recordAll_append]
      rfl

theorem map_sound {L : Int} {P : Tree → Prop} {g : Gen} (hg : Sound (L + 1) P g) :
    Sound L (fun t => ∃ n kvs, t = .map n kvs ∧ n = kvs.length ∧ kvs.length < 10 ∧
      ∀ kv ∈ kvs, (∃ w, kv.1 = .atom (.str w) ∧ Word w) ∧ P kv.2) (mapRandom g) := by
  intro b rs r hrs hb h
  cases rs with
  | nil => cases h
  | cons n rs =>
    simp only [mapRandom] at h
    cases hl : mapLoop g (n % 10) (record b (.beginMap (n % 10 : Nat))) rs with
    | none => rw [hl] at h; cases h
    | some q =>
      obtain ⟨xs, rs', rfl, hrs', e1, e2⟩ := mapLoop_sound hg _ _ _ _ (fun r hr => hrs r (List.mem_cons_of_mem _ hr)) (by simp [record, hb]) hl
      rw [hl] at h
      cases h
      refine ⟨.map (n % 10 : Nat) xs, rs', ?_, hrs', _, _, rfl, by omega, by omega, e2⟩
      rw [Tree.calls, recordAll, recordAll_append]
      rfl

theorem double_sound (prod : Nat → Nat → UInt64) (nan : Bool) (r1 ty r2 : Nat) (h1 : r1 ≤ 2147483647) (h2 : r2 ≤ 2147483647) :
    (∃ r1' r2', r1' ≤ 2147483647 ∧ r2' ≤ 2147483647 ∧ randomDouble prod nan r1 ty r2 = prod r1' r2') ∨
    (nan = true ∧ randomDouble prod nan r1 ty r2 ∈ [0xFFF0000000000000, 0x7FF0000000000000, 0x7FF8000000000000, 0x7FF4000000000000]) := by
  unfold randomDouble
  split
  · exact .inl ⟨r1, r2, h1, h2, rfl⟩
  · next h =>
    refine .inr ⟨by simpa using (not_or.mp h).2, ?_⟩
    split
    · split <;> simp
    · split <;> simp

theorem dis_or {dis e t : Nat} (h : (dis ||| e).testBit t = false) : dis.testBit t = false ∧ e.testBit t = false := by
  rwa [Nat.testBit_or, Bool.or_eq_false_iff] at h

theorem basic_sound (prod : Nat → Nat → UInt64) (dis : Nat) (max : Int) (nan : Bool) (hd : dis.testBit 0 = true) : ∀ (fuel : Nat) (L : Int),
    Sound L (Fit prod dis nan (max - L).toNat) (basicRandom prod dis max nan fuel) := by
  intro fuel
  induction fuel with
  | zero => intro L b rs r _ _ h; cases h
  | succ fuel ih =>
    intro L b rs r hrs hb h
    rw [basicRandom] at h
    cases ht : randomType (dis ||| endEvents) b.level max rs with
    | none => rw [ht] at h; cases h
    | some p =>
      obtain ⟨t, rs1⟩ := p
      obtain ⟨h1, h2, h3, h8⟩ := type_sound ht
      have hrs1 : Rands rs1 := fun r hr => hrs r (h8 r hr)
      obtain ⟨h4, h5⟩ := dis_or h1
      rw [ht] at h
      dsimp only at h
      have deeper : L < max → (max - L).toNat = (max - (L + 1)).toNat + 1 := fun h => by omega
      have atom : ∀ (a : Atom) (rs : Rnd), Rands rs → FitAtom prod dis nan a → r = .ok (record b a.call, rs) →
          ∃ t rs', r = .ok (recordAll b t.calls, rs') ∧ Rands rs' ∧ Fit prod dis nan (max - L).toNat t := by
        intro a rs hrs ha hr
        refine ⟨.atom a, rs, hr, hrs, ?_⟩
        cases (max - L).toNat <;> exact ha
      split at h
      · obtain ⟨t, rs', e1, hrs', n, kvs, rfl, e2, e3, e4⟩ := map_sound (ih (L + 1)) b rs1 r hrs1 hb h
        refine ⟨_, rs', e1, hrs', ?_⟩
        rw [deeper (hb ▸ h3 (.inl rfl)), Fit]
        exact ⟨h4, e2, e3, e4⟩
      · obtain ⟨t, rs', e1, hrs', n, xs, rfl, e2, e3, e4⟩ := list_sound (ih (L + 1)) b rs1 r hrs1 hb h
        refine ⟨_, rs', e1, hrs', ?_⟩
        rw [deeper (hb ▸ h3 (.inr rfl)), Fit]
        exact ⟨h4, e2, e3, e4⟩
      · cases h; exact atom .null _ hrs1 h4 rfl
      · split at h
        · cases h
        · cases h; exact atom (.bool _) _ (fun r hr => hrs1 r (List.mem_cons_of_mem _ hr)) h4 rfl
      · split at h
        · cases h
        · next hs =>
          obtain ⟨hw, hsub⟩ := string_sound _ _ _ hs
          cases h; exact atom (.str _) _ (fun r hr => hrs1 r (hsub r hr)) ⟨h4, hw⟩ rfl
      · split at h
        · cases h
        · next r0 _ =>
          have hr0 := hrs1 r0 (List.mem_cons_self ..)
          have hi : (Int64.ofInt ((r0 : Int) - (randMax / 2 : Nat))).toInt = (r0 : Int) - 1073741823 :=
            Int64.toInt_ofInt_of_le (by simp [randMax]; omega) (by simp [randMax]; omega)
          cases h; exact atom (.int _) _ (fun r hr => hrs1 r (List.mem_cons_of_mem _ hr)) ⟨h4, by omega, by omega⟩ rfl
      · split at h
        · cases h
        · next r0 _ =>
          have hr0 := hrs1 r0 (List.mem_cons_self ..)
          cases h; exact atom (.uint _) _ (fun r hr => hrs1 r (List.mem_cons_of_mem _ hr)) ⟨h4, by simp; omega⟩ rfl
      · split at h
        · cases h
          refine atom (.flt _) _ (fun r hr => hrs1 r (by simp [hr])) ⟨h4, double_sound _ _ _ _ _ (hrs1 _ (by simp)) (hrs1 _ (by simp))⟩ rfl
        · cases h
      · exact absurd h2 (by decide)
      · have he : ∀ t, t < 12 → (endEvents.testBit t = false → t ≠ 0 → t ∈ [2, 4, 6, 7, 8, 9, 10, 11]) := by decide
        have h0 : t ≠ 0 := by rintro rfl; rw [hd] at h4; cases h4
        have := he t h2 h5 h0
        simp at this
        rcases this with rfl | rfl | rfl | rfl | rfl | rfl | rfl | rfl <;> simp_all

/-- C114.  Whenever `FillRandom` returns, it has recorded one list or map, in a document unless that is not wanted, with true lengths,
nothing of the kinds not wanted, nested at most as deep as allowed; it never throws. -/
theorem random_recording (prod : Nat → Nat → UInt64) (dis : Nat) (max : Int) (nan : Bool) (b : Buf) (rs : Rnd) (r : Out (Buf × Rnd))
    (hrs : Rands rs) (h : fillRandom prod dis max nan b rs = some r) :
    ∃ t rs', r = .ok (recordAll b (inDoc (!dis.testBit 0) t.calls), rs') ∧ Rands rs' ∧ t.isContainer = true ∧
      Fit prod (dis ||| 1) nan (max - b.level - (if dis.testBit 0 then 0 else 1)).toNat t := by
  have hdis : (dis ||| 1).testBit 0 = true := by simp
  have main : ∀ (b : Buf) (rs : Rnd) (q : Out (Buf × Rnd)), Rands rs →
      (match randomType ((dis ||| 1) ||| scalarEvents ||| endEvents) b.level max rs with
      | none => none
      | some (t, rs) => match t with
        | 2 => mapRandom (basicRandom prod (dis ||| 1) max nan ((max - b.level).toNat + 1)) b rs
        | 4 => listRandom (basicRandom prod (dis ||| 1) max nan ((max - b.level).toNat + 1)) b rs
        | _ => some (.throw .runtime)) = some q →
      ∃ t rs', q = .ok (recordAll b t.calls, rs') ∧ Rands rs' ∧ t.isContainer = true ∧ Fit prod (dis ||| 1) nan (max - b.level).toNat t := by
    intro b rs q hrs h
    cases ht : randomType ((dis ||| 1) ||| scalarEvents ||| endEvents) b.level max rs with
    | none => rw [ht] at h; cases h
    | some p =>
      obtain ⟨t, rs1⟩ := p
      obtain ⟨h1, h2, h3, h8⟩ := type_sound ht
      have hrs1 : Rands rs1 := fun r hr => hrs r (h8 r hr)
      obtain ⟨h4, h5⟩ := dis_or h1
      obtain ⟨h4, h6⟩ := dis_or h4
      rw [ht] at h
      dsimp only at h
      have he : ∀ t, t < 12 → endEvents.testBit t = false → scalarEvents.testBit t = false → t ≠ 0 → t = 2 ∨ t = 4 := by decide
      have h0 : t ≠ 0 := by rintro rfl; rw [hdis] at h4; cases h4
      have deeper : b.level < max → (max - b.level).toNat = (max - (b.level + 1)).toNat + 1 := fun h => by omega
      rcases he t h2 h5 h6 h0 with rfl | rfl
      · obtain ⟨t, rs', e1, hrs', n, kvs, rfl, e2, e3, e4⟩ := map_sound (basic_sound prod (dis ||| 1) max nan hdis _ (b.level + 1)) b rs1 q hrs1 rfl h
        refine ⟨_, rs', e1, hrs', rfl, ?_⟩
        rw [deeper (h3 (.inl rfl)), Fit]
        exact ⟨h4, e2, e3, e4⟩
      · obtain ⟨t, rs', e1, hrs', n, xs, rfl, e2, e3, e4⟩ := list_sound (basic_sound prod (dis ||| 1) max nan hdis _ (b.level + 1)) b rs1 q hrs1 rfl h
        refine ⟨_, rs', e1, hrs', rfl, ?_⟩
        rw [deeper (h3 (.inr rfl)), Fit]
        exact ⟨h4, e2, e3, e4⟩
  simp only [fillRandom] at h
  by_cases hb : dis.testBit 0 = true
  · simp only [hb, if_true, Bool.true_eq_false, if_false, Int.sub_zero, Bool.not_true, inDoc] at h ⊢
    split at h
    · cases h
    · next t rs1 ht =>
      split at h
      · next b' rs' hm =>
        cases h
        have := main b rs (.ok (b', rs')) hrs (by rw [ht]; exact hm)
        obtain ⟨t, rs2, e1, e4, e2, e3⟩ := this
        exact ⟨t, rs2, e1, e4, e2, e3⟩
      · next hm => exact main b rs r hrs (by rw [ht]; exact h)
  · have hb : dis.testBit 0 = false := by simpa using hb
    simp only [hb, if_true, Bool.false_eq_true, if_false, Bool.not_false, inDoc] at h ⊢
    have hl : (record b .beginDoc).level = b.level + 1 := by simp [record]
    have hsub : max - b.level - 1 = max - (record b .beginDoc).level := by rw [hl]; omega
    rw [hsub]
    split at h
    · cases h
    · next t rs1 ht =>
      split at h
      · next b' rs' hm =>
        cases h
        have := main (record b .beginDoc) rs (.ok (b', rs')) hrs (by rw [ht]; exact hm)
        obtain ⟨t, rs2, e1, e4, e2, e3⟩ := this
        cases e1
        refine ⟨t, rs', ?_, e4, e2, e3⟩
        rw [recordAll, recordAll_append]
        rfl
      · next hm hn =>
        obtain ⟨t, rs2, e1, e4, e2, e3⟩ := main (record b .beginDoc) rs r hrs (by rw [ht]; exact h)
        exact absurd (h.trans (congrArg some e1)) (hn _ _)

/-! ## Completeness -/

/-- A generating function produces a value, for some numbers. -/
def Makes (g : Gen) (b : Buf) (t : Tree) : Prop :=
  ∃ pre, Rands pre ∧ ∀ rs, g b (pre ++ rs) = some (.ok (recordAll b t.calls, rs))

theorem rands_cons {r : Nat} {rs : Rnd} (h : r ≤ 2147483647) (hs : Rands rs) : Rands (r :: rs) := fun x hx => by
  rcases List.mem_cons.mp hx with rfl | hx
  · exact h
  · exact hs x hx

theorem rands_append {a b : Rnd} (ha : Rands a) (hb : Rands b) : Rands (a ++ b) := fun x hx => by
  rcases List.mem_append.mp hx with hx | hx
  · exact ha x hx
  · exact hb x hx

theorem rands_word (s : Bytes) : Rands (s.map UInt8.toNat) := fun x hx => by
  obtain ⟨c, _, rfl⟩ := List.mem_map.mp hx
  have := c.toNat_lt
  omega

theorem chars_complete (s : Bytes) (h : ∀ c ∈ s, goodChar c = true) (rs : Rnd) :
    randomChars s.length (s.map UInt8.toNat ++ rs) = some (s, rs) := by
  induction s with
  | nil => rw [List.length_nil, randomChars]; rfl
  | cons c s ih =>
    have e : UInt8.ofNat c.toNat = c := by simp
    simp only [List.length_cons, List.map_cons, List.cons_append]
    rw [randomChars, e, if_pos (h c (by simp)), ih (fun c hc => h c (by simp [hc]))]

theorem string_complete {s : Bytes} (h : Word s) (rs : Rnd) :
    randomString (s.length :: (s.map UInt8.toNat ++ rs)) = some (s, rs) := by
  have e : s.length % 100 = s.length := Nat.mod_eq_of_lt h.2.1
  rw [randomString, e, if_neg (by have := h.1; omega)]
  exact chars_complete s (fun c hc => (goodChar_iff c).mpr (h.2.2 c hc)) rs

theorem type_complete {dis : Nat} {level max : Int} {t : Nat} (h1 : dis.testBit t = false) (h2 : t < 12)
    (h3 : level < max ∨ beginEvents.testBit t = false) (rs : Rnd) : randomType dis level max (t :: rs) = some (t, rs) := by
  have key : ∀ t, t < 12 → allEvents.testBit t = true := by decide
  have e : t % 32 = t := Nat.mod_eq_of_lt (by omega)
  rw [randomType]
  simp only [pickType, e]
  rw [if_pos]
  refine ⟨?_, key t h2⟩
  split
  · rcases h3 with h3 | h3
    · omega
    · rw [Nat.testBit_or, h1, h3]; rfl
  · exact h1

theorem listLoop_complete {L : Int} {g : Gen} (xs : List Tree) (hg : ∀ x ∈ xs, ∀ b, b.level = L → Makes g b x) (b : Buf) (hb : b.level = L) :
    ∃ pre, Rands pre ∧ ∀ rs, listLoop g xs.length b (pre ++ rs) = some (.ok (recordAll b (callsList xs), rs)) := by
  induction xs generalizing b with
  | nil => exact ⟨[], nofun, fun rs => rfl⟩
  | cons x xs ih =>
    obtain ⟨p1, r1, e1⟩ := hg x (by simp) b hb
    obtain ⟨p2, r2, e2⟩ := ih (fun y hy => hg y (by simp [hy])) (recordAll b x.calls) (by rw [level_tree, hb])
    refine ⟨p1 ++ p2, rands_append r1 r2, fun rs => ?_⟩
    rw [List.length_cons, listLoop, List.append_assoc, e1]
    dsimp only
    rw [e2, callsList, recordAll_append]

theorem mapLoop_complete {L : Int} {g : Gen} (kvs : List (Tree × Tree))
    (hg : ∀ kv ∈ kvs, (∃ w, kv.1 = .atom (.str w) ∧ Word w) ∧ ∀ b, b.level = L → Makes g b kv.2) (b : Buf) (hb : b.level = L) :
    ∃ pre, Rands pre ∧ ∀ rs, mapLoop g kvs.length b (pre ++ rs) = some (.ok (recordAll b (callsPairs kvs), rs)) := by
  induction kvs generalizing b with
  | nil => exact ⟨[], nofun, fun rs => rfl⟩
  | cons kv kvs ih =>
    obtain ⟨k, x⟩ := kv
    obtain ⟨⟨w, hk, hw⟩, hx⟩ := hg (k, x) (by simp)
    dsimp only at hk
    subst hk
    obtain ⟨p1, r1, e1⟩ := hx (record b (.str w)) (by simp [record, hb])
    obtain ⟨p2, r2, e2⟩ := ih (fun y hy => hg y (by simp [hy])) (recordAll (record b (.str w)) x.calls)
      (by rw [level_tree]; simp [record, hb])
    refine ⟨w.length :: (w.map UInt8.toNat ++ (p1 ++ p2)), rands_cons (by have := hw.2.1; omega)
      (rands_append (rands_word w) (rands_append r1 r2)), fun rs => ?_⟩
    rw [List.length_cons, mapLoop, List.cons_append, List.append_assoc, string_complete hw]
    dsimp only
    rw [List.append_assoc, e1]
    dsimp only
    rw [e2, callsPairs, recordAll_append, recordAll_append]
    rfl

theorem list_complete {L : Int} {g : Gen} (xs : List Tree) (hn : xs.length < 10) (hg : ∀ x ∈ xs, ∀ b, b.level = L + 1 → Makes g b x)
    (b : Buf) (hb : b.level = L) : Makes (listRandom g) b (.list xs.length xs) := by
  obtain ⟨pre, hp, e⟩ := listLoop_complete xs hg (record b (.beginList xs.length)) (by simp [record, hb])
  refine ⟨xs.length :: pre, rands_cons (by omega) hp, fun rs => ?_⟩
  have h10 : xs.length % 10 = xs.length := Nat.mod_eq_of_lt hn
  rw [List.cons_append]
  simp only [listRandom]
  rw [h10, e]
  dsimp only
  rw [Tree.calls, recordAll, recordAll_append]
  rfl

theorem map_complete {L : Int} {g : Gen} (kvs : List (Tree × Tree)) (hn : kvs.length < 10)
    (hg : ∀ kv ∈ kvs, (∃ w, kv.1 = .atom (.str w) ∧ Word w) ∧ ∀ b, b.level = L + 1 → Makes g b kv.2)
    (b : Buf) (hb : b.level = L) : Makes (mapRandom g) b (.map kvs.length kvs) := by
  obtain ⟨pre, hp, e⟩ := mapLoop_complete kvs hg (record b (.beginMap kvs.length)) (by simp [record, hb])
  refine ⟨kvs.length :: pre, rands_cons (by omega) hp, fun rs => ?_⟩
  have h10 : kvs.length % 10 = kvs.length := Nat.mod_eq_of_lt hn
  rw [List.cons_append]
  simp only [mapRandom]
  rw [h10, e]
  dsimp only
  rw [Tree.calls, recordAll, recordAll_append]
  rfl

theorem or_ends {dis t : Nat} (h : dis.testBit t = false) (he : endEvents.testBit t = false) : (dis ||| endEvents).testBit t = false := by
  rw [Nat.testBit_or, h, he]; rfl

theorem atom_complete (prod : Nat → Nat → UInt64) (dis : Nat) (max : Int) (nan : Bool) (fuel : Nat) (b : Buf) (a : Atom)
    (h : FitAtom prod dis nan a) : Makes (basicRandom prod dis max nan (fuel + 1)) b (.atom a) := by
  have go : ∀ (t : Nat) (pre : Rnd), t < 12 → dis.testBit t = false → endEvents.testBit t = false → beginEvents.testBit t = false → Rands pre →
      (∀ rs, randomType (dis ||| endEvents) b.level max (t :: (pre ++ rs)) = some (t, pre ++ rs) →
        basicRandom prod dis max nan (fuel + 1) b (t :: (pre ++ rs)) = some (.ok (record b a.call, rs))) →
      Makes (basicRandom prod dis max nan (fuel + 1)) b (.atom a) := by
    intro t pre h1 h2 h3 h4 hp h5
    refine ⟨t :: pre, rands_cons (by omega) hp, fun rs => ?_⟩
    rw [List.cons_append]
    exact h5 rs (type_complete (or_ends h2 h3) h1 (.inr h4) _)
  cases a with
  | null => exact go 6 [] (by decide) h (by decide) (by decide) nofun (fun rs h => by rw [basicRandom, h]; rfl)
  | bool v =>
    refine go 7 [if v then 1 else 0] (by decide) h (by decide) (by decide) ?_ (fun rs h => by rw [basicRandom, h]; cases v <;> rfl)
    intro r hr
    cases v <;> simp_all
  | str s =>
    refine go 8 (s.length :: s.map UInt8.toNat) (by decide) h.1 (by decide) (by decide)
      (rands_cons (by have := h.2.2.1; omega) (rands_word s)) (fun rs ht => ?_)
    rw [basicRandom, ht]
    dsimp only
    rw [List.cons_append, string_complete h.2]
    rfl
  | int i =>
    obtain ⟨h1, h2, h3⟩ := h
    refine go 9 [(i.toInt + 1073741823).toNat] (by decide) h1 (by decide) (by decide) (rands_cons (by omega) nofun) (fun rs ht => ?_)
    rw [basicRandom, ht]
    dsimp only [List.cons_append]
    have e : (((i.toInt + 1073741823).toNat : Nat) : Int) - (randMax / 2 : Nat) = i.toInt := by simp [randMax]; omega
    rw [e, Int64.ofInt_toInt]
    rfl
  | uint u =>
    refine go 10 [u.toNat] (by decide) h.1 (by decide) (by decide) (rands_cons h.2 nofun) (fun rs ht => ?_)
    rw [basicRandom, ht]
    dsimp only [List.cons_append]
    rw [UInt64.ofNat_toNat]
    rfl
  | flt d =>
    obtain ⟨h1, h2⟩ := h
    rcases h2 with ⟨r1, r2, hr1, hr2, rfl⟩ | ⟨hn, hd⟩
    · refine go 11 [r1, 0, r2] (by decide) h1 (by decide) (by decide) (rands_cons hr1 (rands_cons (by decide) (rands_cons hr2 nofun))) (fun rs ht => ?_)
      rw [basicRandom, ht]
      rfl
    · subst hn
      have g : ∀ ty, ty ≤ 2147483647 → d = randomDouble prod true 0 ty 0 → Makes (basicRandom prod dis max true (fuel + 1)) b (.atom (.flt d)) := by
        intro ty h2 h3
        subst h3
        exact go 11 [0, ty, 0] (by decide) h1 (by decide) (by decide) (rands_cons (by decide) (rands_cons h2 (rands_cons (by decide) nofun))) (fun rs ht => by rw [basicRandom, ht]; rfl)
      simp only [List.mem_cons, List.not_mem_nil, or_false] at hd
      rcases hd with rfl | rfl | rfl | rfl
      · exact g 1 (by decide) rfl
      · exact g 5 (by decide) rfl
      · exact g 3 (by decide) rfl
      · exact g 7 (by decide) rfl
  | blob s => exact h.elim

theorem basic_complete (prod : Nat → Nat → UInt64) (dis : Nat) (max : Int) (nan : Bool) : ∀ (fuel : Nat) (L : Int) (t : Tree) (b : Buf),
    (max - L).toNat < fuel → b.level = L → Fit prod dis nan (max - L).toNat t → Makes (basicRandom prod dis max nan fuel) b t := by
  intro fuel
  induction fuel with
  | zero => intro L t b h; omega
  | succ fuel ih =>
    intro L t b hf hb ht
    cases t with
    | atom a =>
      refine atom_complete prod dis max nan fuel b a ?_
      cases h : (max - L).toNat <;> (rw [h] at ht; exact ht)
    | list n xs =>
      cases h : (max - L).toNat with
      | zero => rw [h] at ht; exact ht.elim
      | succ d =>
        rw [h, Fit] at ht
        obtain ⟨h1, rfl, h3, h4⟩ := ht
        have hd : (max - (L + 1)).toNat = d := by omega
        obtain ⟨pre, hp, e⟩ := list_complete (g := basicRandom prod dis max nan fuel) xs h3
          (fun x hx b hb => ih (L + 1) x b (by omega) hb (by rw [hd]; exact h4 x hx)) b hb
        refine ⟨4 :: pre, rands_cons (by decide) hp, fun rs => ?_⟩
        rw [basicRandom, List.cons_append, type_complete (or_ends h1 (by decide)) (by decide) (.inl (by omega))]
        exact e rs
    | map n kvs =>
      cases h : (max - L).toNat with
      | zero => rw [h] at ht; exact ht.elim
      | succ d =>
        rw [h, Fit] at ht
        obtain ⟨h1, rfl, h3, h4⟩ := ht
        have hd : (max - (L + 1)).toNat = d := by omega
        obtain ⟨pre, hp, e⟩ := map_complete (g := basicRandom prod dis max nan fuel) kvs h3
          (fun kv hx => ⟨(h4 kv hx).1, fun b hb => ih (L + 1) kv.2 b (by omega) hb (by rw [hd]; exact (h4 kv hx).2)⟩) b hb
        refine ⟨2 :: pre, rands_cons (by decide) hp, fun rs => ?_⟩
        rw [basicRandom, List.cons_append, type_complete (or_ends h1 (by decide)) (by decide) (.inl (by omega))]
        exact e rs

/-- Every list or map of these comes out, for some numbers. -/
theorem random_possible (prod : Nat → Nat → UInt64) (dis : Nat) (max : Int) (nan : Bool) (b : Buf) (t : Tree) (hc : t.isContainer = true)
    (ht : Fit prod (dis ||| 1) nan (max - b.level - (if dis.testBit 0 then 0 else 1)).toNat t) :
    ∃ rs, Rands rs ∧ fillRandom prod dis max nan b rs = some (.ok (recordAll b (inDoc (!dis.testBit 0) t.calls), [])) := by
  have main : ∀ b : Buf, Fit prod (dis ||| 1) nan (max - b.level).toNat t → ∃ pre, Rands pre ∧
      (match randomType ((dis ||| 1) ||| scalarEvents ||| endEvents) b.level max pre with
      | none => none
      | some (t, rs) => match t with
        | 2 => mapRandom (basicRandom prod (dis ||| 1) max nan ((max - b.level).toNat + 1)) b rs
        | 4 => listRandom (basicRandom prod (dis ||| 1) max nan ((max - b.level).toNat + 1)) b rs
        | _ => some (.throw .runtime)) = some (.ok (recordAll b t.calls, [])) := by
    intro b ht
    have hd : ∀ k, (dis ||| 1).testBit k = false → scalarEvents.testBit k = false → endEvents.testBit k = false →
        ((dis ||| 1) ||| scalarEvents ||| endEvents).testBit k = false := by
      intro k h1 h2 h3
      rw [Nat.testBit_or, Nat.testBit_or, h1, h2, h3]; rfl
    cases t with
    | atom a => cases hc
    | list n xs =>
      cases h : (max - b.level).toNat with
      | zero => rw [h] at ht; exact ht.elim
      | succ d =>
        rw [h, Fit] at ht
        obtain ⟨h1, rfl, h3, h4⟩ := ht
        have hd' : (max - (b.level + 1)).toNat = d := by omega
        obtain ⟨pre, hp, e⟩ := list_complete (g := basicRandom prod (dis ||| 1) max nan (d + 1 + 1)) xs h3
          (fun x hx b' hb => basic_complete prod _ max nan _ (b.level + 1) x b' (by omega) hb (by rw [hd']; exact h4 x hx)) b rfl
        refine ⟨4 :: pre, rands_cons (by decide) hp, ?_⟩
        rw [type_complete (hd 4 h1 (by decide) (by decide)) (by decide) (.inl (by omega))]
        have := e []
        rw [List.append_nil] at this
        exact this
    | map n kvs =>
      cases h : (max - b.level).toNat with
      | zero => rw [h] at ht; exact ht.elim
      | succ d =>
        rw [h, Fit] at ht
        obtain ⟨h1, rfl, h3, h4⟩ := ht
        have hd' : (max - (b.level + 1)).toNat = d := by omega
        obtain ⟨pre, hp, e⟩ := map_complete (g := basicRandom prod (dis ||| 1) max nan (d + 1 + 1)) kvs h3
          (fun kv hx => ⟨(h4 kv hx).1, fun b' hb => basic_complete prod _ max nan _ (b.level + 1) kv.2 b' (by omega) hb
            (by rw [hd']; exact (h4 kv hx).2)⟩) b rfl
        refine ⟨2 :: pre, rands_cons (by decide) hp, ?_⟩
        rw [type_complete (hd 2 h1 (by decide) (by decide)) (by decide) (.inl (by omega))]
        have := e []
        rw [List.append_nil] at this
        exact this
  by_cases hb : dis.testBit 0 = true
  · simp only [hb, if_true, Int.sub_zero, Bool.not_true, inDoc] at ht ⊢
    obtain ⟨pre, hp, e⟩ := main b ht
    refine ⟨pre, hp, ?_⟩
    simp only [fillRandom, hb, Bool.true_eq_false, if_false, Bool.false_eq_true]
    have key : ∀ o : Option (Out (Buf × Rnd)), o = some (.ok (recordAll b t.calls, [])) →
        (match o with | some (.ok (b, rs)) => some (Out.ok (b, rs)) | r => r) = some (.ok (recordAll b t.calls, [])) := by
      rintro _ rfl; rfl
    split at e
    · cases e
    · next q rs' hq =>
      rw [hq]
      exact key _ e
  · have hb : dis.testBit 0 = false := by simpa using hb
    simp only [hb, Bool.false_eq_true, if_false, Bool.not_false, inDoc] at ht ⊢
    have hl : (record b .beginDoc).level = b.level + 1 := by simp [record]
    have hsub : max - b.level - 1 = max - (record b .beginDoc).level := by rw [hl]; omega
    rw [hsub] at ht
    obtain ⟨pre, hp, e⟩ := main (record b .beginDoc) ht
    refine ⟨pre, hp, ?_⟩
    simp only [fillRandom, hb, if_true]
    have key : ∀ o : Option (Out (Buf × Rnd)), o = some (.ok (recordAll (record b .beginDoc) t.calls, [])) →
        (match o with | some (.ok (b, rs)) => some (Out.ok (record b .endDoc, rs)) | r => r) =
          some (.ok (recordAll (recordAll (record b .beginDoc) t.calls) [.endDoc], [])) := by
      rintro _ rfl; rfl
    split at e
    · cases e
    · next q rs' hq =>
      rw [hq, recordAll, recordAll_append]
      exact key _ e

/-- C114.  What a buffer holds afterwards is exactly the recording of a list or map that fits. -/
theorem random_exactly (prod : Nat → Nat → UInt64) (dis : Nat) (max : Int) (nan : Bool) (b b' : Buf) :
    (∃ rs rs', Rands rs ∧ fillRandom prod dis max nan b rs = some (.ok (b', rs'))) ↔
    ∃ t, t.isContainer = true ∧ Fit prod (dis ||| 1) nan (max - b.level - (if dis.testBit 0 then 0 else 1)).toNat t ∧
      b' = recordAll b (inDoc (!dis.testBit 0) t.calls) := by
  constructor
  · rintro ⟨rs, rs', hrs, h⟩
    obtain ⟨t, rs2, e, -, h1, h2⟩ := random_recording prod dis max nan b rs _ hrs h
    injection e with e
    injection e with e1 e2
    exact ⟨t, h1, h2, e1⟩
  · rintro ⟨t, h1, h2, rfl⟩
    obtain ⟨rs, hrs, h⟩ := random_possible prod dis max nan b t h1 h2
    exact ⟨rs, [], hrs, h⟩

/-! ## When it returns -/

/-- The level is kept. -/
def KeepsLevel (g : Gen) : Prop := ∀ b rs b' rs', g b rs = some (.ok (b', rs')) → b'.level = b.level

theorem listLoop_level {g : Gen} (hg : KeepsLevel g) (n : Nat) : KeepsLevel (listLoop g n) := by
  induction n with
  | zero => intro b rs b' rs' h; cases h; rfl
  | succ n ih =>
    intro b rs b' rs' h
    rw [listLoop] at h
    split at h
    · next b1 rs1 h1 => rw [ih _ _ _ _ h, hg _ _ _ _ h1]
    · next hn => exact absurd h (hn _ _)

theorem mapLoop_level {g : Gen} (hg : KeepsLevel g) (n : Nat) : KeepsLevel (mapLoop g n) := by
  induction n with
  | zero => intro b rs b' rs' h; cases h; rfl
  | succ n ih =>
    intro b rs b' rs' h
    rw [mapLoop] at h
    split at h
    · cases h
    · split at h
      · next b1 rs1 h1 => rw [ih _ _ _ _ h, hg _ _ _ _ h1]; simp [record]
      · next hn => exact absurd h (hn _ _)

theorem listRandom_level {g : Gen} (hg : KeepsLevel g) : KeepsLevel (listRandom g) := by
  intro b rs b' rs' h
  cases rs with
  | nil => cases h
  | cons r rs =>
    simp only [listRandom] at h
    split at h
    · next b1 rs1 h1 =>
      cases h
      have := listLoop_level hg _ _ _ _ _ h1
      simp [record] at this ⊢
      omega
    · next hn => exact absurd h (hn _ _)

theorem mapRandom_level {g : Gen} (hg : KeepsLevel g) : KeepsLevel (mapRandom g) := by
  intro b rs b' rs' h
  cases rs with
  | nil => cases h
  | cons r rs =>
    simp only [mapRandom] at h
    split at h
    · next b1 rs1 h1 =>
      cases h
      have := mapLoop_level hg _ _ _ _ _ h1
      simp [record] at this ⊢
      omega
    · next hn => exact absurd h (hn _ _)

theorem basic_level (prod : Nat → Nat → UInt64) (dis : Nat) (max : Int) (nan : Bool) (fuel : Nat) :
    KeepsLevel (basicRandom prod dis max nan fuel) := by
  induction fuel with
  | zero => intro b rs b' rs' h; cases h
  | succ fuel ih =>
    intro b rs b' rs' h
    rw [basicRandom] at h
    split at h
    · cases h
    · split at h
      · exact mapRandom_level ih _ _ _ _ h
      · exact listRandom_level ih _ _ _ _ h
      all_goals first
        | (cases h; simp [record]; done)
        | (cases h; done)
        | (split at h <;> (cases h; try simp [record]))

theorem listLoop_congr {g g' : Gen} {L : Int} (hg : KeepsLevel g) (he : ∀ b rs, b.level = L → g b rs = g' b rs) (n : Nat) :
    ∀ b rs, b.level = L → listLoop g n b rs = listLoop g' n b rs := by
  induction n with
  | zero => intro b rs _; rfl
  | succ n ih =>
    intro b rs hb
    rw [listLoop, listLoop, ← he b rs hb]
    split
    · next b1 rs1 h1 => exact ih _ _ (by rw [hg _ _ _ _ h1, hb])
    · rfl

theorem mapLoop_congr {g g' : Gen} {L : Int} (hg : KeepsLevel g) (he : ∀ b rs, b.level = L → g b rs = g' b rs) (n : Nat) :
    ∀ b rs, b.level = L → mapLoop g n b rs = mapLoop g' n b rs := by
  induction n with
  | zero => intro b rs _; rfl
  | succ n ih =>
    intro b rs hb
    rw [mapLoop, mapLoop]
    split
    · rfl
    · next k rs1 h0 =>
      rw [← he (record b (.str k)) rs1 (by simp [record, hb])]
      split
      · next b1 rs2 h1 => exact ih _ _ (by rw [hg _ _ _ _ h1]; simp [record, hb])
      · rfl

/-- The bound on the nesting in the model is never reached: with a larger one all is the same. -/
theorem fuel_enough (prod : Nat → Nat → UInt64) (dis : Nat) (max : Int) (nan : Bool) : ∀ (f f' : Nat) (b : Buf) (rs : Rnd),
    (max - b.level).toNat < f → (max - b.level).toNat < f' → basicRandom prod dis max nan f b rs = basicRandom prod dis max nan f' b rs := by
  intro f
  induction f with
  | zero => intro f' b rs h; omega
  | succ f ih =>
    intro f' b rs h h'
    cases f' with
    | zero => omega
    | succ f' =>
      rw [basicRandom, basicRandom]
      cases ht : randomType (dis ||| endEvents) b.level max rs with
      | none => rfl
      | some p =>
        obtain ⟨t, rs1⟩ := p
        have hd := (type_sound ht).2.2.1
        dsimp only
        have hk := basic_level prod dis max nan f
        have he : b.level < max → ∀ b' rs', b'.level = b.level + 1 → basicRandom prod dis max nan f b' rs' = basicRandom prod dis max nan f' b' rs' :=
          fun hm b' rs' hb' => ih f' b' rs' (by omega) (by omega)
        split
        · have he := he (hd (.inl rfl))
          cases rs1 with
          | nil => rfl
          | cons r rs1 =>
            simp only [mapRandom]
            rw [mapLoop_congr hk he _ _ _ (by simp [record])]
        · have he := he (hd (.inr rfl))
          cases rs1 with
          | nil => rfl
          | cons r rs1 =>
            simp only [listRandom]
            rw [listLoop_congr hk he _ _ _ (by simp [record])]
        all_goals rfl

/-- It returns for some numbers exactly if a container is allowed and there is room for it; otherwise it never returns. -/
theorem random_returns (prod : Nat → Nat → UInt64) (dis : Nat) (max : Int) (nan : Bool) (b : Buf) :
    (∃ rs, Rands rs ∧ fillRandom prod dis max nan b rs ≠ none) ↔
    b.level + (if dis.testBit 0 then 0 else 1) < max ∧ (dis.testBit 2 = false ∨ dis.testBit 4 = false) := by
  have hbit : ∀ k, k ≠ 0 → (dis ||| 1).testBit k = dis.testBit k := by
    intro k hk
    rw [Nat.testBit_or]
    have : Nat.testBit 1 k = false := by
      cases k with
      | zero => exact absurd rfl hk
      | succ k => simp [Nat.testBit_succ]
    rw [this, Bool.or_false]
  constructor
  · rintro ⟨rs, hrs, h⟩
    cases hr : fillRandom prod dis max nan b rs with
    | none => exact absurd hr h
    | some r =>
      obtain ⟨t, rs', -, -, hc, hf⟩ := random_recording prod dis max nan b rs r hrs hr
      have pos : 0 < (max - b.level - (if dis.testBit 0 then 0 else 1)).toNat := by
        cases hd : (max - b.level - (if dis.testBit 0 then 0 else 1)).toNat with
        | zero => rw [hd] at hf; cases t <;> first | exact hf.elim | cases hc
        | succ d => omega
      refine ⟨by omega, ?_⟩
      obtain ⟨d, hd⟩ : ∃ d, (max - b.level - (if dis.testBit 0 then 0 else 1)).toNat = d + 1 := ⟨_, (Nat.succ_pred_eq_of_pos pos).symm⟩
      rw [hd] at hf
      cases t with
      | atom a => cases hc
      | list n xs => rw [Fit, hbit 4 (by decide)] at hf; exact .inr hf.1
      | map n kvs => rw [Fit, hbit 2 (by decide)] at hf; exact .inl hf.1
  · rintro ⟨h1, h2⟩
    have pos : 0 < (max - b.level - (if dis.testBit 0 then 0 else 1)).toNat := by omega
    obtain ⟨d, hd⟩ : ∃ d, (max - b.level - (if dis.testBit 0 then 0 else 1)).toNat = d + 1 := ⟨_, (Nat.succ_pred_eq_of_pos pos).symm⟩
    rcases h2 with h2 | h2
    · obtain ⟨rs, hrs, h⟩ := random_possible prod dis max nan b (.map 0 []) rfl (by
        rw [hd, Fit, hbit 2 (by decide)]; exact ⟨h2, rfl, by decide, nofun⟩)
      exact ⟨rs, hrs, by rw [h]; nofun⟩
    · obtain ⟨rs, hrs, h⟩ := random_possible prod dis max nan b (.list 0 []) rfl (by
        rw [hd, Fit, hbit 4 (by decide)]; exact ⟨h2, rfl, by decide, nofun⟩)
      exact ⟨rs, hrs, by rw [h]; nofun⟩

/-! ## Playing it back -/

theorem word_plain {w : Bytes} (h : Word w) : w.takeWhile (· ≠ 0) = w := by
  have : ∀ c ∈ w, c ≠ 0 := by
    rintro c hc rfl
    have := (h.2.2 0 hc).1
    exact absurd this (by decide)
  clear h
  induction w with
  | nil => rfl
  | cons c w ih =>
    rw [List.takeWhile_cons, if_pos (by simpa using this c (by simp)), ih (fun c hc => this c (by simp [hc]))]

theorem fit_exact (prod : Nat → Nat → UInt64) (dis : Nat) (nan : Bool) : ∀ (d : Nat) (t : Tree), Fit prod dis nan d t →
    t.Small ∧ t.exact = t.calls ∧ ∀ s, Call.blob s ∉ t.calls := by
  have atom : ∀ a, FitAtom prod dis nan a → (Tree.atom a).Small ∧ (Tree.atom a).exact = (Tree.atom a).calls ∧ ∀ s, Call.blob s ∉ (Tree.atom a).calls := by
    intro a h
    refine ⟨trivial, ?_, ?_⟩
    · cases a with
      | str s => simp only [Tree.exact, Tree.calls, Atom.plain, word_plain h.2]
      | blob s => exact h.elim
      | _ => rfl
    · intro s hs
      cases a with
      | blob s => exact h
      | _ => simp [Tree.calls, Atom.call] at hs
  intro d
  induction d with
  | zero =>
    intro t h
    cases t with
    | atom a => exact atom a h
    | list n xs => exact h.elim
    | map n kvs => exact h.elim
  | succ d ih =>
    intro t h
    cases t with
    | atom a => exact atom a h
    | list n xs =>
      rw [Fit] at h
      obtain ⟨-, rfl, h3, h4⟩ := h
      have each : ∀ ys : List Tree, (∀ y ∈ ys, Fit prod dis nan d y) → SmallList ys ∧ exactList ys = callsList ys ∧ ∀ s, Call.blob s ∉ callsList ys := by
        intro ys
        induction ys with
        | nil => intro _; exact ⟨trivial, rfl, nofun⟩
        | cons y ys ihy =>
          intro hy
          obtain ⟨a1, a2, a3⟩ := ih y (hy y (by simp))
          obtain ⟨b1, b2, b3⟩ := ihy (fun z hz => hy z (by simp [hz]))
          refine ⟨⟨a1, b1⟩, by rw [exactList, callsList, a2, b2], fun s hs => ?_⟩
          rw [callsList, List.mem_append] at hs
          exact hs.elim (a3 s) (b3 s)
      obtain ⟨a1, a2, a3⟩ := each xs h4
      refine ⟨⟨by omega, a1⟩, by rw [Tree.exact, Tree.calls, a2], fun s hs => ?_⟩
      simp only [Tree.calls, List.mem_cons, List.mem_append, List.not_mem_nil, or_false] at hs
      rcases hs with hs | hs | hs
      · cases hs
      · exact a3 s hs
      · cases hs
    | map n kvs =>
      rw [Fit] at h
      obtain ⟨-, rfl, h3, h4⟩ := h
      have each : ∀ ys : List (Tree × Tree), (∀ kv ∈ ys, (∃ w, kv.1 = .atom (.str w) ∧ Word w) ∧ Fit prod dis nan d kv.2) →
          SmallPairs ys ∧ exactPairs ys = callsPairs ys ∧ ∀ s, Call.blob s ∉ callsPairs ys := by
        intro ys
        induction ys with
        | nil => intro _; exact ⟨trivial, rfl, nofun⟩
        | cons y ys ihy =>
          intro hy
          obtain ⟨k, x⟩ := y
          obtain ⟨⟨w, hk, hw⟩, hx⟩ := hy (k, x) (by simp)
          dsimp only at hk hx
          subst hk
          obtain ⟨a1, a2, a3⟩ := ih x hx
          obtain ⟨b1, b2, b3⟩ := ihy (fun z hz => hy z (by simp [hz]))
          refine ⟨⟨trivial, a1, b1⟩, ?_, fun s hs => ?_⟩
          · rw [exactPairs, callsPairs, a2, b2]
            simp only [Tree.exact, Tree.calls, Atom.plain, word_plain hw]
          · rw [callsPairs, List.mem_append, List.mem_append] at hs
            rcases hs with (hs | hs) | hs
            · simp [Tree.calls, Atom.call] at hs
            · exact a3 s hs
            · exact b3 s hs
      obtain ⟨a1, a2, a3⟩ := each kvs h4
      refine ⟨⟨by omega, a1⟩, by rw [Tree.exact, Tree.calls, a2], fun s hs => ?_⟩
      simp only [Tree.calls, List.mem_cons, List.mem_append, List.not_mem_nil, or_false] at hs
      rcases hs with hs | hs | hs
      · cases hs
      · exact a3 s hs
      · cases hs

/-- C114.  Playing back a random recording makes the calls for a list or map that fits, all lengths announced rightly, and there is
such a recording for each. -/
theorem random_played (prod : Nat → Nat → UInt64) (dis : Nat) (max : Int) (nan : Bool) (cs : List Call) :
    (∃ rs b' rs', Rands rs ∧ fillRandom prod dis max nan Buf.empty rs = some (.ok (b', rs')) ∧ playback b' = cs) ↔
    ∃ t, t.isContainer = true ∧ Fit prod (dis ||| 1) nan (max - (if dis.testBit 0 then 0 else 1)).toNat t ∧ cs = inDoc (!dis.testBit 0) t.calls := by
  have hz : max - Buf.empty.level - (if dis.testBit 0 then 0 else 1) = max - (if dis.testBit 0 then 0 else 1) := by simp [Buf.empty]
  have play : ∀ t, Fit prod (dis ||| 1) nan (max - (if dis.testBit 0 then 0 else 1)).toNat t →
      playback (recordAll Buf.empty (inDoc (!dis.testBit 0) t.calls)) = inDoc (!dis.testBit 0) t.calls := by
    intro t hf
    obtain ⟨h1, h2, -⟩ := fit_exact _ _ _ _ _ hf
    cases hb : dis.testBit 0
    · simp only [Bool.not_false, inDoc, if_true]
      rw [recording_document_sizes t h1, h2]
    · simp only [Bool.not_true, inDoc, Bool.false_eq_true, if_false]
      have := recording_sizes [t] ⟨h1, trivial⟩
      simp only [callsList, exactList, List.append_nil] at this
      rw [this, h2]
  constructor
  · rintro ⟨rs, b', rs', hrs, h, rfl⟩
    obtain ⟨t, hc, hf, rfl⟩ := (random_exactly prod dis max nan Buf.empty b').mp ⟨rs, rs', hrs, h⟩
    rw [hz] at hf
    exact ⟨t, hc, hf, play t hf⟩
  · rintro ⟨t, hc, hf, rfl⟩
    obtain ⟨rs, rs', hrs, h⟩ := (random_exactly prod dis max nan Buf.empty _).mpr ⟨t, hc, by rw [hz]; exact hf, rfl⟩
    exact ⟨rs, _, rs', hrs, h, play t hf⟩

/-- A value of a few kinds that comes out with room for two containers in a document. -/
example (prod : Nat → Nat → UInt64) : ∃ rs b' rs', Rands rs ∧ fillRandom prod 0 3 true Buf.empty rs = some (.ok (b', rs')) ∧
    playback b' = [.beginDoc, .beginList 2, .beginMap 1, .str [65, 66], .int (-5), .endMap, .flt 0x7FF0000000000000, .endList, .endDoc] :=
  (random_played prod 0 3 true _).mpr ⟨.list 2 [.map 1 [(.atom (.str [65, 66]), .atom (.int (-5)))], .atom (.flt 0x7FF0000000000000)], rfl,
    by simp [Fit, FitAtom, Word, Nat.testBit_succ], rfl⟩

/-- Refuted: a kind that is not disallowed can come out: there are never blobs (`ALL_EVENTS` lacks their bit). -/
theorem random_blobs_false (prod : Nat → Nat → UInt64) (dis : Nat) (max : Int) (nan : Bool) :
    ¬ ∃ rs b' rs' s, Rands rs ∧ fillRandom prod dis max nan Buf.empty rs = some (.ok (b', rs')) ∧ Call.blob s ∈ playback b' := by
  rintro ⟨rs, b', rs', s, hrs, h, hs⟩
  obtain ⟨t, hc, hf, e⟩ := (random_played prod dis max nan _).mp ⟨rs, b', rs', hrs, h, rfl⟩
  rw [e] at hs
  have := (fit_exact _ _ _ _ _ hf).2.2 s
  unfold inDoc at hs
  split at hs
  · simp only [List.mem_cons, List.mem_append, List.not_mem_nil, or_false] at hs
    rcases hs with hs | hs | hs
    · cases hs
    · exact this hs
    · cases hs
  · exact this hs

/-- Refuted: nothing of a disallowed kind comes out: keys are strings although strings are disallowed (0x100). -/
theorem random_keys_false (prod : Nat → Nat → UInt64) :
    ∃ rs b' rs' s, Rands rs ∧ fillRandom prod 0x100 2 false Buf.empty rs = some (.ok (b', rs')) ∧ Call.str s ∈ playback b' := by
  obtain ⟨rs, b', rs', h1, h2, h3⟩ := (random_played prod 0x100 2 false _).mpr
    ⟨.map 1 [(.atom (.str [65]), .atom .null)], rfl, by simp [Fit, FitAtom, Word, Nat.testBit_succ], rfl⟩
  exact ⟨rs, b', rs', [65], h1, h2, by rw [h3]; simp [inDoc, Tree.calls, callsPairs, Atom.call]⟩

end Verif.Event
