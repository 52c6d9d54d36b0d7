import Verif.Bundle.Emit
/-!
# Writing and reading a bundle header
-/

namespace Verif.Bundle
open Verif Verif.JsonDrv
open Verif.Guess (Blank)

theorem allSome_cons {α : Type} {a : Option α} {as : List (Option α)} {l : List α} (h : allSome (a :: as) = some l) :
    ∃ x xs, a = some x ∧ allSome as = some xs ∧ l = x :: xs := by
  cases a with
  | none => cases h
  | some x =>
    simp only [allSome, Option.map_eq_some_iff] at h
    obtain ⟨xs, h1, h2⟩ := h
    exact ⟨x, xs, rfl, h1, h2.symm⟩

theorem noNul_upTo {s : Bytes} (h : ∀ x ∈ s, x ≠ 0) : upToNul s = s := Guess.takeWhile_noNul fun h0 => h 0 h0 rfl

/-- What is needed of the text of a member. -/
structure GoodLine (t : Bytes) : Prop where
  clean : ∀ x ∈ t, x ≠ 35 ∧ x ≠ 10 ∧ x ≠ 0
  head : ∀ c, t.head? = some c → isSpace c = false
  last : ∀ c, t.getLast? = some c → isSpace c = false

theorem goodLine_text {t : Bytes} (h : GoodLine t) : Text t t :=
  ⟨[], by rw [noNul_upTo fun x hx => (h.clean x hx).2.2]; simp, nofun, h.last⟩

theorem intercalate_clean {P : UInt8 → Prop} (hb : P 124) {ts : List Bytes} (h : ∀ t ∈ ts, ∀ x ∈ t, P x) :
    ∀ x ∈ List.intercalate [124] ts ++ [124], P x := by
  intro x hx
  rcases List.mem_append.1 hx with hx | hx
  · induction ts with
    | nil => simp [List.intercalate] at hx
    | cons t ts ih =>
      by_cases h0 : ts = []
      · subst h0
        rw [intercalate_one] at hx
        exact h t (by simp) x hx
      · rw [intercalate_cons _ h0] at hx
        rcases List.mem_append.1 hx with hx | hx
        · exact h t (by simp) x hx
        · rcases List.mem_cons.1 hx with rfl | hx
          · exact hb
          · exact ih (fun u hu => h u (by simp [hu])) (List.mem_append_left _ hx) hx
  · rw [List.mem_singleton.1 hx]; exact hb

theorem cut_bars {ts : List Bytes} (h : ∀ t ∈ ts, 124 ∉ t) (hne : ∀ t ∈ ts, t ≠ []) :
    (cut (List.intercalate [124] ts ++ [124])).filter (· ≠ []) = ts := by
  by_cases h0 : ts = []
  · subst h0; decide
  · have : List.intercalate [124] ts ++ [124] = List.intercalate [124] (ts ++ [[]]) := by
      clear h hne
      induction ts with
      | nil => exact absurd rfl h0
      | cons t ts ih =>
        by_cases h1 : ts = []
        · subst h1
          rw [intercalate_one, List.cons_append, List.nil_append, intercalate_cons _ (by simp), intercalate_one]
        · rw [intercalate_cons _ h1, List.cons_append, intercalate_cons _ (by simp), ← ih h1]
          simp
    rw [this, cut_intercalate (by simp) (by
      intro p hp
      rcases List.mem_append.1 hp with hp | hp
      · exact h p hp
      · rw [List.mem_singleton.1 hp]; nofun)]
    rw [List.filter_append, List.filter_eq_self.2 (fun t ht => by simpa using hne t ht)]
    simp

theorem goodMember_text {ff : UInt64 → Bytes} {x : Val} (h : GoodMember ff x) : ∃ t, memberText ff x = some t ∧ GoodLine t ∧
    ∀ fo y, Means fo t y → ReadBack ff fo x y := by
  cases h with
  | @scalar _ t h1 h2 h3 h4 =>
    have hm : memberText ff x = some t := by
      cases x with
      | list xs => cases h1
      | _ => exact h1
    have hgl : GoodLine t := ⟨fun c hc => (h2 c hc).2, h3, h4⟩
    refine ⟨t, hm, hgl, fun fo y hy => ?_⟩
    have hno : 124 ∉ t := fun h => (h2 124 h).1 rfl
    have hlast : t.getLast? ≠ some 124 := fun h => hno (List.mem_of_getLast? h)
    cases hy with
    | blank hT _ _ hS =>
      rw [text_unique hT (goodLine_text hgl)] at hS
      exact .scalar h1 hS
    | @scalar t0 p bars v hT _ _ hbars _ hS =>
      have he := text_unique hT (goodLine_text hgl)
      have hb0 : bars = [] := by
        cases bars with
        | nil => rfl
        | cons b bars =>
          exact absurd (by rw [← he, ← hbars b (by simp)]; simp) hno
      rw [hb0, List.append_nil] at he
      rw [he] at hS
      exact .scalar h1 hS
    | list hT hP hor _ =>
      have he := text_unique hT (goodLine_text hgl)
      rw [he, pieces_iff, cut_piece hno] at hP
      rcases hor with h | h
      · exact absurd h hlast
      · have h5 : (List.filter (fun x => decide (x ≠ [])) [t]).length ≤ 1 := List.length_filter_le _ _
        rw [hP] at h; omega
  | @list xs ts h1 h2 h3 =>
    have hm : memberText ff (.list xs) = some (List.intercalate [124] ts ++ [124]) := by simp [memberText, h1]
    have hgl : GoodLine (List.intercalate [124] ts ++ [124]) := by
      refine ⟨?_, ?_, ?_⟩
      · exact intercalate_clean (P := fun x => x ≠ 35 ∧ x ≠ 10 ∧ x ≠ 0) (by decide) fun t ht x hx => ((h2 t ht).1 x hx).2
      · intro c hc
        cases ts with
        | nil => simp [List.intercalate] at hc; subst hc; rfl
        | cons t ts =>
          refine h3 t c rfl ?_
          rw [intercalate_bars] at hc
          have := (h2 t (by simp)).2
          cases t with
          | nil => exact absurd rfl this
          | cons a t => exact hc
      · intro c hc
        simp at hc; subst hc; rfl
    refine ⟨_, hm, hgl, fun fo y hy => ?_⟩
    have hlast : (List.intercalate [124] ts ++ [124]).getLast? = some 124 := by simp
    cases hy with
    | blank _ _ hb _ => exact absurd hlast hb
    | scalar _ _ hb _ _ _ => exact absurd hlast hb
    | @list t ts' vs hT hP _ hS =>
      rw [text_unique hT (goodLine_text hgl), pieces_iff, cut_bars (fun t ht h => ((h2 t ht).1 124 h).1 rfl) fun t ht => (h2 t ht).2] at hP
      rw [hP] at hS
      exact .list h1 hS

theorem goodKey_field {k t : Bytes} (hk : GoodKey k) (ht : GoodLine t) : Field (k ++ [58, 32] ++ t) k t :=
  ⟨[], [], [32], [], by simp, nofun, nofun, by unfold Blank; decide, nofun, fun x hx =>
    ⟨(hk.1 x hx).1, (hk.1 x hx).2.1, (hk.1 x hx).2.2.1, (hk.1 x hx).2.2.2.1⟩, hk.2.1, fun h => (ht.clean 35 h).1 rfl, ht.head, nofun⟩

theorem goodKey_upTo {k : Bytes} (hk : GoodKey k) : upToNul k = k := noNul_upTo fun x hx => (hk.1 x hx).2.2.2.2.2

/-- The lines of the members. -/
theorem members_lines {ff : UInt64 → Bytes} (m : List (Bytes × Val)) (hm : ∀ p ∈ m, GoodKey p.1 ∧ GoodMember ff p.2) :
    ∃ ls fs, allSome (m.map (memberLine ff)) = some (ls.map (· ++ [10])) ∧ (∀ l ∈ ls, 10 ∉ l) ∧ Fields ls fs ∧
      fs.map (·.1) = m.map (·.1) ∧
      ∀ a k raw b, fs = a ++ (k, raw) :: b → ∃ x, (k, x) ∈ m ∧ ∀ fo y, Means fo raw y → ReadBack ff fo x y := by
  induction m with
  | nil => exact ⟨[], [], rfl, nofun, .nil, rfl, fun a k raw b h => by cases a <;> cases h⟩
  | cons p m ih =>
    obtain ⟨k, x⟩ := p
    obtain ⟨ls, fs, h1, h2, h3, h4, h5⟩ := ih fun p hp => hm p (by simp [hp])
    obtain ⟨hk, hx⟩ := hm (k, x) (by simp)
    obtain ⟨t, ht, hg, hr⟩ := goodMember_text hx
    refine ⟨(k ++ [58, 32] ++ t) :: ls, (k, t) :: fs, ?_, ?_, ?_, ?_, ?_⟩
    · have : memberLine ff (k, x) = some (k ++ [58, 32] ++ t ++ [10]) := by
        simp only [memberLine, ht, Option.map_some, goodKey_upTo hk]
      simp only [List.map_cons, this, allSome, h1, Option.map_some]
    · intro l hl
      rcases List.mem_cons.1 hl with rfl | hl
      · intro h10
        simp only [List.mem_append, List.mem_cons, List.not_mem_nil, or_false] at h10
        rcases h10 with (h | h | h) | h
        · exact (hk.1 10 h).2.2.2.2.1 rfl
        · cases h
        · cases h
        · exact (hg.clean 10 h).2.1 rfl
      · exact h2 l hl
    · have := Fields.field (goodKey_field hk hg) (by rw [goodKey_upTo hk]; exact hk.2.2) h3
      rw [goodKey_upTo hk] at this
      exact this
    · simp [h4]
    · intro a k' raw b he
      cases a with
      | nil =>
        cases he
        exact ⟨x, by simp, hr⟩
      | cons f a =>
        cases he
        obtain ⟨x', h6, h7⟩ := h5 a k' raw b rfl
        exact ⟨x', by simp [h6], h7⟩

theorem version_field : Field (versionText.take 19) versionKey [48, 46, 48] :=
  ⟨[], [], [32], [], by decide, nofun, nofun, by unfold Blank; decide, nofun, by decide, by
    intro x h; cases h; rfl, by decide, by intro x h; cases h; rfl, nofun⟩

/-- The document read back. -/
theorem round_doc (ff : UInt64 → Bytes) (fo : FloatOps) (stale : Nat → Bool) {m : List (Bytes × Val)} (hs : AMap.Sorted m)
    (hm : ∀ p ∈ m, GoodKey p.1 ∧ GoodMember ff p.2) :
    ∃ out m', serialize ff (.map m) = some out ∧ (∃ N, ∀ fuel ≥ N, deserialize fo stale memory fuel out = some (.ok (.map m'))) ∧
      AMap.Sorted m' ∧ ∀ k, (AMap.get m k = none → AMap.get m' k = none) ∧
        ∀ x, AMap.get m k = some x → ∃ y, AMap.get m' k = some y ∧ ReadBack ff fo x y := by
  obtain ⟨ls, fs, h1, h2, h3, h4, h5⟩ := members_lines m hm
  refine ⟨versionText ++ (ls.map (· ++ [10])).flatten, ?_⟩
  have hv : versionText = versionText.take 19 ++ [10] := by decide
  have hl : Lines (versionText ++ (ls.map (· ++ [10])).flatten) (versionText.take 19 :: ls) [] := by
    refine ⟨by conv => lhs; rw [hv]
               simp, ?_, nofun⟩
    intro l hl
    rcases List.mem_cons.1 hl with rfl | hl
    · decide
    · exact h2 l hl
  have hf : Fields (versionText.take 19 :: ls) fs := .version version_field (by decide) h3
  obtain ⟨v, h6, h7⟩ := deserialize_spec fo stale (memory_serves _) (s := versionText ++ (ls.map (· ++ [10])).flatten)
    ⟨rfl, Nat.zero_le _⟩ hl (Nat.le_refl _)
  rw [if_neg (by simp [versionText])] at h7
  obtain ⟨m', rfl, h8, h9, h10⟩ := h7
  rw [← fields_unique hf] at h9 h10
  refine ⟨m', ?_, ⟨_, fun fuel hfu => h6 fuel hfu⟩, h8, fun k => ⟨fun hk => h9 k ?_, fun x hx => ?_⟩⟩
  · rw [serialize_text, headerText, h1]; rfl
  · intro f hf' he
    have : k ∈ m.map (·.1) := by rw [← h4, ← he]; exact List.mem_map_of_mem hf'
    obtain ⟨p, hp, rfl⟩ := List.mem_map.1 this
    rw [AMap.get_of_mem hs (v := p.2) hp] at hk
    cases hk
  · have hin : k ∈ fs.map (·.1) := by
      rw [h4]; exact List.mem_map_of_mem (f := (·.1)) (AMap.get_mem hx)
    have hlast : ∀ fs : List (Bytes × Bytes), k ∈ fs.map (·.1) → ∃ a raw b, fs = a ++ (k, raw) :: b ∧ ∀ f ∈ b, f.1 ≠ k := by
      intro fs
      induction fs with
      | nil => intro h; cases h
      | cons f fs ih =>
        intro h
        by_cases hin : k ∈ fs.map (·.1)
        · obtain ⟨a, raw, b, rfl, hl⟩ := ih hin
          exact ⟨f :: a, raw, b, rfl, hl⟩
        · rcases List.mem_cons.1 h with h | h
          · refine ⟨[], f.2, fs, by rw [h]; rfl, fun g hg e => hin ?_⟩
            rw [← e]; exact List.mem_map_of_mem hg
          · exact absurd h hin
    obtain ⟨a, raw, b, he, hb⟩ := hlast fs hin
    obtain ⟨y, h11, h12⟩ := h10 a k raw b he hb
    obtain ⟨x', h13, h14⟩ := h5 a k raw b he
    have hxx : x' = x := by
      have := AMap.get_of_mem hs h13
      rw [hx] at this
      exact (Option.some.inj this).symm
    rw [hxx] at h14
    exact ⟨y, h11, h14 fo y h12⟩

end Verif.Bundle
