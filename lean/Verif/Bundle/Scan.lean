import Verif.Bundle.Spec
/-!
# Lines, values and pieces
-/

namespace Verif.Bundle
open Verif Verif.JsonDrv
open Verif.Guess (Blank split_dropWhile dropWhile_blank dropWhile_of_head)

theorem split_takeWhile {p : UInt8 → Bool} (s : Bytes) : s = s.takeWhile p ++ s.dropWhile p :=
  (List.takeWhile_append_dropWhile).symm

theorem mem_takeWhile {p : UInt8 → Bool} {s : Bytes} {x : UInt8} (h : x ∈ s.takeWhile p) : p x = true := by
  induction s with
  | nil => cases h
  | cons y l ih =>
    simp only [List.takeWhile] at h
    split at h
    · rcases List.mem_cons.1 h with rfl | h
      · assumption
      · exact ih h
    · cases h

theorem head_dropWhile {p : UInt8 → Bool} {s : Bytes} {x : UInt8} (h : (s.dropWhile p).head? = some x) : p x = false := by
  induction s with
  | nil => cases h
  | cons y l ih =>
    simp only [List.dropWhile] at h
    split at h
    · exact ih h
    · cases h; simpa using ‹_›

/-- A beginning of bytes that satisfy `p`, followed by one that does not. -/
theorem takeWhile_append {p : UInt8 → Bool} {a b : Bytes} (ha : ∀ x ∈ a, p x = true) (hb : ∀ x, b.head? = some x → p x = false) :
    (a ++ b).takeWhile p = a ∧ (a ++ b).dropWhile p = b := by
  induction a with
  | nil =>
    cases b with
    | nil => exact ⟨rfl, rfl⟩
    | cons x b =>
      have := hb x rfl
      simp [List.takeWhile, List.dropWhile, this]
  | cons y a ih =>
    have h1 := ha y (by simp)
    obtain ⟨h2, h3⟩ := ih fun x hx => ha x (by simp [hx])
    simp only [List.cons_append, List.takeWhile, List.dropWhile, h1]
    rw [h2, h3]
    exact ⟨rfl, rfl⟩

theorem endsKey_iff (c : UInt8) : endsKey c = true ↔ c = 58 ∨ c = 32 ∨ c = 9 := by
  simp [endsKey, or_assoc]

theorem head_append {a b : Bytes} {x : UInt8} (h : (a ++ b).head? = some x) : a.head? = some x ∨ (a = [] ∧ b.head? = some x) := by
  cases a with
  | nil => exact .inr ⟨rfl, h⟩
  | cons y a => exact .inl h

/-- The scanner finds exactly the fields. -/
theorem scanLine_iff (line k v : Bytes) : scanLine line = some (k, v) ↔ Field line k v := by
  unfold scanLine
  constructor
  · intro h
    split at h
    · cases h
    dsimp only at h
    split at h
    · cases h
    · rename_i hne hk
      split at h
      · cases h
      · rename_i b r hr
        split at h
        · rename_i hb
          subst hb
          cases h
          obtain ⟨b1, h1, hb1⟩ := split_dropWhile line
          obtain ⟨b2, h2, hb2⟩ := split_dropWhile ((line.dropWhile isSpace).dropWhile fun b => !endsKey b)
          obtain ⟨b3, h3, hb3⟩ := split_dropWhile r
          refine ⟨b1, b2, b3, (r.dropWhile isSpace).dropWhile (· ≠ 35), ?_, hb1, hb2, hb3, ?_, ?_, ?_, ?_, ?_, ?_⟩
          · conv => lhs; rw [h1, split_takeWhile (p := fun b => !endsKey b) (line.dropWhile isSpace), h2, hr, h3,
                      split_takeWhile (p := (· ≠ 35)) (r.dropWhile isSpace)]
            simp
          · intro x hx
            have : ((line.dropWhile isSpace).dropWhile fun b => !endsKey b).head? = some x := by
              rw [h2]
              cases b2 with
              | nil => cases hx
              | cons y b2 => exact hx
            have h4 := head_dropWhile this
            simp only [Bool.not_eq_false'] at h4
            rcases (endsKey_iff x).1 h4 with rfl | h4
            · have := hb2 58 (List.mem_of_mem_head? hx)
              cases this
            · exact h4
          · intro x hx
            have h4 := mem_takeWhile hx
            simp only [Bool.not_eq_true'] at h4
            have h5 : ¬ (x = 58 ∨ x = 32 ∨ x = 9) := fun h => by rw [(endsKey_iff x).2 h] at h4; cases h4
            exact ⟨fun e => h5 (.inl e), fun e => h5 (.inr (.inl e)), fun e => h5 (.inr (.inr e)), fun e => hk (e ▸ hx)⟩
          · intro x hx
            refine head_dropWhile (p := isSpace) (s := line) ?_
            rw [split_takeWhile (p := fun b => !endsKey b) (line.dropWhile isSpace)]
            cases hq : (line.dropWhile isSpace).takeWhile fun b => !endsKey b with
            | nil => rw [hq] at hx; cases hx
            | cons y q => rw [hq] at hx; exact hx
          · intro h5
            have := mem_takeWhile h5
            simp at this
          · intro x hx
            refine head_dropWhile (p := isSpace) (s := r) ?_
            rw [split_takeWhile (p := (· ≠ 35)) (r.dropWhile isSpace)]
            cases hq : (r.dropWhile isSpace).takeWhile (· ≠ 35) with
            | nil => rw [hq] at hx; cases hx
            | cons y q => rw [hq] at hx; exact hx
          · intro x hx
            have := head_dropWhile hx
            simpa using this
        · cases h
  · rintro ⟨b1, b2, b3, c, rfl, hb1, hb2, hb3, hh2, hk, hkh, hv, hvh, hc⟩
    rw [if_neg (by simp)]
    have h58 : isSpace 58 = false := rfl
    -- the rest of the line after the blanks
    have hkey : ∀ x, (k ++ (b2 ++ 58 :: (b3 ++ (v ++ c)))).head? = some x → (k ≠ [] → isSpace x = false) := by
      intro x hx hne
      rcases head_append hx with h | ⟨h, _⟩
      · exact hkh x h
      · exact absurd h hne
    have hdrop : ∃ b2', Blank b2' ∧ (∀ x, b2'.head? = some x → x = 32 ∨ x = 9) ∧
        (b1 ++ k ++ b2 ++ [58] ++ b3 ++ v ++ c).dropWhile isSpace = k ++ (b2' ++ 58 :: (b3 ++ (v ++ c))) := by
      have hre : b1 ++ k ++ b2 ++ [58] ++ b3 ++ v ++ c = b1 ++ (k ++ (b2 ++ 58 :: (b3 ++ (v ++ c)))) := by simp
      rw [hre, dropWhile_blank hb1]
      by_cases hk0 : k = []
      · subst hk0
        refine ⟨[], nofun, nofun, ?_⟩
        rw [List.nil_append, dropWhile_blank hb2]
        rfl
      · refine ⟨b2, hb2, hh2, dropWhile_of_head fun x hx => hkey x hx hk0⟩
    obtain ⟨b2', hb2', hh2', hd⟩ := hdrop
    dsimp only
    rw [hd]
    have htw := takeWhile_append (p := fun b => !endsKey b) (a := k) (b := b2' ++ 58 :: (b3 ++ (v ++ c))) (by
        intro x hx
        obtain ⟨h1, h2, h3, _⟩ := hk x hx
        have : ¬ endsKey x = true := fun h => by rcases (endsKey_iff x).1 h with h | h | h <;> contradiction
        simpa using this) (by
        intro x hx
        have : endsKey x = true := by
          rw [endsKey_iff]
          rcases head_append hx with h | ⟨_, h⟩
          · exact .inr (hh2' x h)
          · exact .inl (Option.some.inj h).symm
        simpa using this)
    rw [htw.1, htw.2, if_neg (fun h => (hk 35 h).2.2.2 rfl), dropWhile_blank hb2']
    have h1 : (58 :: (b3 ++ (v ++ c))).dropWhile isSpace = 58 :: (b3 ++ (v ++ c)) := by simp [List.dropWhile, h58]
    rw [h1]
    simp only [if_true]
    congr 2
    rw [dropWhile_blank hb3]
    have hcv : (v ++ c).takeWhile (· ≠ 35) = v :=
      (takeWhile_append (p := (· ≠ 35)) (a := v) (b := c)
        (fun x hx => decide_eq_true (fun e : x = 35 => hv (e ▸ hx)))
        (fun x hx => by simpa using hc x hx)).1
    by_cases hv0 : v = []
    · subst hv0
      have : ((c : Bytes).dropWhile isSpace) = c := dropWhile_of_head fun x hx => by rw [hc x hx]; rfl
      rw [List.nil_append, this]
      exact hcv
    · rw [dropWhile_of_head (fun x hx => by
        rcases head_append hx with h | ⟨h, _⟩
        · exact hvh x h
        · exact absurd h hv0)]
      exact hcv

theorem scanLine_none_iff (line : Bytes) : scanLine line = none ↔ ∀ k v, ¬ Field line k v := by
  constructor
  · intro h k v hf
    rw [(scanLine_iff line k v).2 hf] at h; cases h
  · intro h
    cases hs : scanLine line with
    | none => rfl
    | some kv => exact absurd ((scanLine_iff line kv.1 kv.2).1 hs) (h _ _)

/-! ## Values -/

theorem valueText_text (raw : Bytes) : Text raw (valueText raw) := by
  obtain ⟨a, h1, h2⟩ := split_dropWhile (Event.cstr raw).reverse
  refine ⟨a.reverse, ?_, Guess.blank_reverse h2, ?_⟩
  · have := congrArg List.reverse h1
    rw [List.reverse_reverse, List.reverse_append] at this
    exact this
  · intro x hx
    rw [valueText, List.getLast?_reverse] at hx
    exact head_dropWhile hx

theorem text_unique {raw t u : Bytes} (ht : Text raw t) (hu : Text raw u) : t = u := by
  obtain ⟨b, h1, h2, h3⟩ := ht
  obtain ⟨c, h4, h5, h6⟩ := hu
  rw [h1] at h4
  have key : ∀ (t b : Bytes), Blank b → (∀ x, t.getLast? = some x → isSpace x = false) →
      (t ++ b).reverse.dropWhile isSpace = t.reverse := by
    intro t b hb ht
    rw [List.reverse_append, dropWhile_blank (Guess.blank_reverse hb)]
    refine dropWhile_of_head fun x hx => ht x ?_
    rw [List.head?_reverse] at hx
    exact hx
  have h7 := key t b h2 h3
  rw [h4, key u c h5 h6] at h7
  exact List.reverse_inj.1 h7.symm

/-! ## Pieces -/

theorem intercalate_cons (x : Bytes) {xs : List Bytes} (h : xs ≠ []) :
    List.intercalate [124] (x :: xs) = x ++ 124 :: List.intercalate [124] xs := by
  cases xs with
  | nil => exact absurd rfl h
  | cons y ys => simp [List.intercalate]

theorem intercalate_one (x : Bytes) : List.intercalate [124] [x] = x := by simp [List.intercalate]

/-- Cutting a text at the bars. -/
def cut (s : Bytes) : List Bytes :=
  match s with
  | [] => [[]]
  | c :: r => if c = 124 then [] :: cut r else
    match cut r with
    | [] => [[c]]
    | p :: ps => (c :: p) :: ps

theorem cut_ne_nil (s : Bytes) : cut s ≠ [] := by
  cases s with
  | nil => simp [cut]
  | cons c r =>
    rw [cut]
    split
    · simp
    · split <;> simp

theorem cut_spec (s : Bytes) : s = List.intercalate [124] (cut s) ∧ ∀ p ∈ cut s, 124 ∉ p := by
  induction s with
  | nil => simp [cut, List.intercalate]
  | cons c r ih =>
    rw [cut]
    by_cases h : c = 124
    · rw [if_pos h]
      refine ⟨?_, ?_⟩
      · rw [intercalate_cons _ (cut_ne_nil r), ← ih.1, h]; rfl
      · intro p hp
        rcases List.mem_cons.1 hp with rfl | hp
        · nofun
        · exact ih.2 p hp
    · rw [if_neg h]
      cases hc : cut r with
      | nil => exact absurd hc (cut_ne_nil r)
      | cons p ps =>
        rw [hc] at ih
        dsimp only
        refine ⟨?_, ?_⟩
        · cases ps with
          | nil => rw [intercalate_one] at ih ⊢; rw [← ih.1]
          | cons q qs =>
            rw [intercalate_cons _ (by simp)] at ih ⊢
            rw [List.cons_append, ← ih.1]
        · intro x hx
          rcases List.mem_cons.1 hx with rfl | hx
          · simp only [List.mem_cons, not_or]
            exact ⟨fun e => h e.symm, ih.2 p (by simp)⟩
          · exact ih.2 x (by simp [hx])

theorem cut_piece {p : Bytes} (h : 124 ∉ p) : cut p = [p] := by
  induction p with
  | nil => rfl
  | cons c r ih =>
    simp only [List.mem_cons, not_or] at h
    rw [cut, if_neg (fun e => h.1 e.symm), ih h.2]

theorem cut_append {p : Bytes} (h : 124 ∉ p) (s : Bytes) : cut (p ++ 124 :: s) = p :: cut s := by
  induction p with
  | nil => simp [cut]
  | cons c r ih =>
    simp only [List.mem_cons, not_or] at h
    rw [List.cons_append, cut, if_neg (fun e => h.1 e.symm), ih h.2]

theorem cut_intercalate {ps : List Bytes} (hne : ps ≠ []) (h : ∀ p ∈ ps, 124 ∉ p) : cut (List.intercalate [124] ps) = ps := by
  induction ps with
  | nil => exact absurd rfl hne
  | cons p ps ih =>
    by_cases h0 : ps = []
    · subst h0; rw [intercalate_one, cut_piece (h p (by simp))]
    · rw [intercalate_cons _ h0, cut_append (h p (by simp)), ih h0 fun q hq => h q (by simp [hq])]

theorem pieces_iff (t : Bytes) (ts : List Bytes) : Pieces t ts ↔ ts = (cut t).filter (· ≠ []) := by
  constructor
  · rintro ⟨ps, h1, rfl, h3, rfl⟩
    rw [cut_intercalate h1 h3]
  · rintro rfl
    exact ⟨cut t, cut_ne_nil t, (cut_spec t).1, (cut_spec t).2, rfl⟩

theorem tokens_cut (fuel : Nat) (s : Bytes) (h : s.length ≤ fuel) : tokens fuel s = (cut s).filter (· ≠ []) := by
  induction fuel generalizing s with
  | zero =>
    have : s = [] := List.length_eq_zero_iff.1 (by omega)
    subst this; rfl
  | succ fuel ih =>
    -- bars in front
    have hbar : ∀ s : Bytes, (cut s).filter (· ≠ []) = (cut (s.dropWhile (· = 124))).filter (· ≠ []) := by
      intro s
      induction s with
      | nil => rfl
      | cons c r ih2 =>
        by_cases hc : c = 124
        · rw [cut, if_pos hc]
          simp only [List.dropWhile, hc, decide_true]
          rw [List.filter_cons_of_neg (by simp), ih2]
        · simp only [List.dropWhile, decide_eq_false hc]
    rw [hbar s, tokens]
    have hlen : (s.dropWhile (· = 124)).length ≤ s.length := (List.dropWhile_suffix _).length_le
    cases hd : s.dropWhile (· = 124) with
    | nil => rfl
    | cons c r =>
      rw [hd] at hlen
      have hc : c ≠ 124 := by
        have := head_dropWhile (p := (· = 124)) (s := s) (x := c) (by rw [hd]; rfl)
        simpa using this
      dsimp only
      have hsp := split_takeWhile (p := (· ≠ 124)) (c :: r)
      have hno : 124 ∉ (c :: r).takeWhile (· ≠ 124) := fun h => by simpa using mem_takeWhile h
      have hhead : (c :: r).takeWhile (· ≠ 124) ≠ [] := by simp [List.takeWhile, hc]
      cases hr : (c :: r).dropWhile (· ≠ 124) with
      | nil =>
        rw [hr, List.append_nil] at hsp
        rw [← hsp] at hno ⊢
        rw [cut_piece hno]
        have : tokens fuel ([] : Bytes) = [] := by cases fuel <;> rfl
        simp [this]
      | cons x q =>
        have hx : x = 124 := by
          have := head_dropWhile (p := (· ≠ 124)) (s := c :: r) (x := x) (by rw [hr]; rfl)
          simpa using this
        rw [hr, hx] at hsp
        have hq : q.length ≤ fuel := by
          have := congrArg List.length hsp
          simp only [List.length_cons, List.length_append] at this hlen
          omega
        conv => rhs; rw [hsp]
        rw [cut_append hno, List.filter_cons_of_pos (by simpa using hhead), hx]
        simp only [List.drop_succ_cons, List.drop_zero]
        rw [ih q hq]

/-- `strtok_r` finds the pieces. -/
theorem tokens_pieces (s : Bytes) : Pieces s (tokens s.length s) :=
  (pieces_iff _ _).2 (tokens_cut _ _ (Nat.le_refl _))

/-- With at most one piece, the text that is read is all of it but for bars behind the piece. -/
theorem oneText_spec {s : Bytes} (h : (tokens s.length s).length ≤ 1) :
    (tokens s.length s = [] ∧ oneText s = s) ∨
    ∃ p bars, tokens s.length s = [p] ∧ s = oneText s ++ bars ∧ (∀ x ∈ bars, x = 124) ∧ (oneText s).getLast? ≠ some 124 := by
  have hs := split_takeWhile (p := (· = 124)) s
  cases hd : s.dropWhile (· = 124) with
  | nil =>
    left
    constructor
    · rw [tokens_cut _ _ (Nat.le_refl _)]
      cases hl : s.length with
      | zero => rw [List.length_eq_zero_iff.1 hl]; rfl
      | succ n =>
        rw [← tokens_cut (n + 1) s (by omega), tokens, hd]
    · rw [oneText, hd]
      rw [hd] at hs
      exact hs.symm
  | cons c r =>
    right
    have hc : c ≠ 124 := by
      have := head_dropWhile (p := (· = 124)) (s := s) (x := c) (by rw [hd]; rfl)
      simpa using this
    have hlen : (c :: r).length ≤ s.length := by rw [← hd]; exact (List.dropWhile_suffix _).length_le
    obtain ⟨n, hn⟩ : ∃ n, s.length = n + 1 := ⟨s.length - 1, by simp at hlen; omega⟩
    have ht : tokens s.length s = (c :: r).takeWhile (· ≠ 124) :: tokens n (((c :: r).dropWhile (· ≠ 124)).drop 1) := by
      rw [hn, tokens, hd]
    rw [ht] at h
    simp only [List.length_cons] at h
    have h0 : tokens n (((c :: r).dropWhile (· ≠ 124)).drop 1) = [] := List.length_eq_zero_iff.1 (by omega)
    have h2 := split_takeWhile (p := (· ≠ 124)) (c :: r)
    have htw : (c :: r).takeWhile (· ≠ 124) ≠ [] := by simp [List.takeWhile, hc]
    refine ⟨_, (c :: r).dropWhile (· ≠ 124), by rw [ht, h0], ?_, ?_, ?_⟩
    · rw [oneText, hd, List.append_assoc, ← h2, ← hd]; exact hs
    · cases hr : (c :: r).dropWhile (· ≠ 124) with
      | nil => nofun
      | cons x q =>
        have hx : x = 124 := by
          have := head_dropWhile (p := (· ≠ 124)) (s := c :: r) (x := x) (by rw [hr]; rfl)
          simpa using this
        rw [hr] at h0
        simp only [List.drop_succ_cons, List.drop_zero] at h0
        have hq : q.length ≤ n := by
          have := congrArg List.length h2
          rw [hr] at this
          simp only [List.length_cons, List.length_append] at this hlen
          omega
        rw [tokens_cut n q hq] at h0
        intro y hy
        rcases List.mem_cons.1 hy with rfl | hy
        · exact hx
        · -- all parts are empty, so every byte is a bar
          clear hq hr ht h2 htw hlen hd hs
          induction q with
          | nil => cases hy
          | cons z q ih =>
            rw [cut] at h0
            by_cases hz : z = 124
            · rw [if_pos hz, List.filter_cons_of_neg (by simp)] at h0
              rcases List.mem_cons.1 hy with rfl | hy
              · exact hz
              · exact ih h0 (by simp [hy]) hy
            · rw [if_neg hz] at h0
              split at h0 <;> simp at h0
    · rw [oneText, hd, List.getLast?_append]
      cases hl : ((c :: r).takeWhile (· ≠ 124)).getLast? with
      | none => exact absurd (List.getLast?_eq_none_iff.1 hl) htw
      | some y =>
        have := mem_takeWhile (List.mem_of_getLast? hl)
        simp only [Option.some_or]
        intro e
        cases e
        simp at this

end Verif.Bundle
