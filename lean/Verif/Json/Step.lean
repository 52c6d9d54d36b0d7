import Verif.Json.Shape
/-!
# Tokenizer invariant: one character preserves it (lemmas for C07 and C09)
-/

namespace Verif.JsonTok

section
variable {t : Tok} {e : List JEv} {c : UInt8} {k : Nat}

theorem step_typed {s : Nat} (hc : classOf c = some (k : Int)) (hk : k < 32) (hn : NC t)
    (ht : t.type ≠ .none) (hs : t.state = (s : Int)) (hs' : s < 36) :
    charStep t c = if 0 ≤ entry s k then .cont { pushBack t c with state := entry s k } []
      else action (pushBack t c) (entry s k) :=
  charStep_eq hc hk (addChar_typed c k hn ht) hs hs'

theorem step_white {s : Nat} (hc : classOf c = some (k : Int)) (hk : k ≤ 1) (hn : NC t)
    (ht : t.type = .none) (hs : t.state = (s : Int)) (hs' : s < 36) (he : entry s k = s) :
    charStep t c = .cont t [] := by
  rw [charStep_eq hc (by omega) (addChar_white c k hn ht (by omega)) hs hs', he, if_pos (by omega)]
  rw [← hs]

theorem step_black {s : Nat} (hc : classOf c = some (k : Int)) (hk : k < 32) (hk1 : 1 < k) (hn : NC t)
    (hs : t.state = (s : Int)) (hs' : s < 36) (he : entry s k < 0) :
    charStep t c = action (pushBack t c) (entry s k) := by
  rw [charStep_eq hc hk (addChar_black c k hn (by omega)) hs hs', if_neg (by omega)]

theorem R_same (h : Shape t e) : R t e (.cont t []) := ⟨by simpa using h, id⟩

/-- A plain state change while a token is read. -/
theorem R_move {s : Int} (h : Shape { pushBack t c with state := s } e)
    (hb : BufOk t → BufOk { pushBack t c with state := s }) :
    R t e (.cont { pushBack t c with state := s } []) := ⟨by simpa using h, hb⟩

/-! ### Rows -/

theorem rows_white : ∀ (s : Fin 7) (k : Fin 2), entry s.val k.val = s.val := by decide +kernel

theorem row_GO : ∀ k : Fin 32, 1 < k.val → entry 0 k.val ∈ [-6, -5, CB, XX] := by decide +kernel
theorem row_OK : ∀ k : Fin 32, 1 < k.val → entry 1 k.val ∈ [-8, -7, -3, CB, XX] := by decide +kernel
theorem row_OB : ∀ k : Fin 32, 1 < k.val → entry 2 k.val ∈ [-9, SB, CB, XX] := by decide +kernel
theorem row_KE : ∀ k : Fin 32, 1 < k.val → entry 3 k.val ∈ [SB, CB, XX] := by decide +kernel
theorem row_CO : ∀ k : Fin 32, 1 < k.val → entry 4 k.val ∈ [-2, CB, XX] := by decide +kernel
theorem row_VA : ∀ k : Fin 32, 1 < k.val →
    entry 5 k.val ∈ [-6, -5, SB, CB, MX, FA, NU, TR, XX] ∨
    (entry 5 k.val ∈ [ZX, IX] ∧ (k.val = 14 ∨ k.val = 15)) := by decide +kernel
theorem row_AR : ∀ k : Fin 32, 1 < k.val →
    entry 6 k.val ∈ [-6, -5, -7, SB, CB, MX, FA, NU, TR, XX] ∨
    (entry 6 k.val ∈ [ZX, IX] ∧ (k.val = 14 ∨ k.val = 15)) := by decide +kernel
theorem minus_class : ∀ k : Fin 32, entry 5 k.val = MX ∨ entry 6 k.val = MX → k.val = 12 := by
  decide +kernel

/-! ### Values starting -/

theorem shape_typed {st : Int} {ty : JT} (hn : NC t) (h : Shape { t with state := st, type := ty } e) :
    Shape { pushBack t c with state := st, type := ty } e := by
  simpa [Shape, pushBack, NC] using h

theorem R_MX (hc : classOf c = some 12) (hn : NC t) (ht : t.type = .none) (hp : VPos t.stack e) :
    R t e (actMinus (pushBack t c)) := by
  refine ⟨.inr (.inr (.inr (.inr (.inl ⟨hn, rfl, rfl, by simpa [pushBack] using hp⟩)))), fun hb => ?_⟩
  have h0 := hb.1 ht
  have h1 := (class_facts c).2.2.1 hc
  subst h1
  simp only [BufOk, pushBack, h0]
  exact ⟨nofun, fun _ => rfl, fun _ h => absurd rfl h, nofun, by decide, by decide, nofun, nofun, nofun, nofun⟩

theorem numText_digit {b : Bytes} {c : UInt8} (hb : b = []) (hd : isDigit c = true) :
    NumText false (b ++ [c]) := ⟨[c], [], by simp [hb], by simp, by simpa using hd⟩

theorem R_ZX (hc : isDigit c = true) (hn : NC t) (ht : t.type = .none) (hp : VPos t.stack e) :
    R t e (actZero (pushBack t c)) := by
  refine ⟨.inr (.inr (.inr (.inr (.inr (.inl ⟨hn, by simp, .inr rfl, by simpa [pushBack] using hp⟩))))), fun hb => ?_⟩
  exact bufOk_of nofun nofun (fun _ => numText_digit (hb.1 ht) hc) rfl

theorem R_IX (hc : isDigit c = true) (hn : NC t) (ht : t.type = .none) (hp : VPos t.stack e) :
    R t e (actDigit (pushBack t c)) := by
  refine ⟨.inr (.inr (.inr (.inr (.inr (.inl ⟨hn, by simp, .inr rfl, by simpa [pushBack] using hp⟩))))), fun hb => ?_⟩
  exact bufOk_of nofun nofun (fun _ => numText_digit (hb.1 ht) hc) rfl

theorem R_TR (hn : NC t) (ht : t.type = .none) (hp : VPos t.stack e) :
    R t e (actTrue (pushBack t c)) := by
  simp only [actTrue, assertThen, show (pushBack t c).type = .none from ht, if_true]
  exact ⟨.inr (.inr (.inr (.inr (.inr (.inr (.inr (.inl ⟨hn, by simp, rfl, by simpa [pushBack] using hp⟩))))))),
    fun hb => bufOk_of nofun nofun nofun rfl⟩

theorem R_FA (hn : NC t) (ht : t.type = .none) (hp : VPos t.stack e) :
    R t e (actFalse (pushBack t c)) := by
  simp only [actFalse, assertThen, show (pushBack t c).type = .none from ht, if_true]
  exact ⟨.inr (.inr (.inr (.inr (.inr (.inr (.inr (.inr (.inl ⟨hn, by simp, rfl, by simpa [pushBack] using hp⟩)))))))),
    fun hb => bufOk_of nofun nofun nofun rfl⟩

theorem R_NU (hn : NC t) (ht : t.type = .none) (hp : VPos t.stack e) :
    R t e (actNull (pushBack t c)) := by
  simp only [actNull, assertThen, show (pushBack t c).type = .none from ht, if_true]
  exact ⟨.inr (.inr (.inr (.inr (.inr (.inr (.inr (.inr (.inr (.inl ⟨hn, by simp, rfl, by simpa [pushBack] using hp⟩))))))))),
    fun hb => bufOk_of nofun nofun nofun rfl⟩

/-! ### Between tokens -/

theorem step_idle (hc : classOf c = some (k : Int)) (hk : k < 32) (hn : NC t) (ht : t.type = .none)
    (hp : Pos t.state t.stack e) : R t e (charStep t c) := by
  have hsh : Shape t e := .inl ⟨hn, ht, hp⟩
  have hw : ∀ s : Nat, s < 7 → t.state = (s : Int) → k ≤ 1 → R t e (charStep t c) := by
    intro s hs7 hs hk1
    rw [step_white hc hk1 hn ht hs (by omega) (rows_white ⟨s, hs7⟩ ⟨k, by omega⟩)]
    exact R_same hsh
  have hcb : ∀ s : Nat, t.state = (s : Int) → R t e (action (pushBack t c) CB) :=
    fun s _ => act_CB_idle c hn ht hp
  have hxx : R t e (action (pushBack t c) XX) := by rw [action_rej]; trivial
  have hdig : (k = 14 ∨ k = 15) → isDigit c = true := by
    rintro (rfl | rfl)
    · exact (class_facts c).1 (.inl hc)
    · exact (class_facts c).1 (.inr hc)
  have hp' := hp
  rcases hp with h | h | h | h | h | h | h
  · -- GO
    obtain ⟨h1, h2, h3⟩ := h
    have hkk : ¬ keyTop t.stack := by rw [h2]; rintro ⟨r, h⟩; simp at h
    have hpt : Pt t.stack .need e := by rw [h2, h3]; rfl
    by_cases hk1 : k ≤ 1
    · exact hw 0 (by omega) h1 hk1
    have hr := row_GO ⟨k, hk⟩ (by simpa using hk1)
    simp only [List.mem_cons, List.not_mem_nil, or_false] at hr
    rw [step_black (s := 0) hc hk (by omega) hn h1 (by omega) (by rcases hr with h | h | h | h <;> rw [h] <;> decide)]
    rcases hr with h | h | h | h <;> rw [h]
    · exact act_m6 c hn ht hkk hpt
    · exact act_m5 c hn ht hkk hpt
    · exact hcb 0 h1
    · exact hxx
  · -- OB
    obtain ⟨h1, h2, h3⟩ := h
    by_cases hk1 : k ≤ 1
    · exact hw 2 (by omega) h1 hk1
    have hr := row_OB ⟨k, hk⟩ (by simpa using hk1)
    simp only [List.mem_cons, List.not_mem_nil, or_false] at hr
    rw [step_black (s := 2) hc hk (by omega) hn h1 (by omega) (by rcases hr with h | h | h | h <;> rw [h] <;> decide)]
    rcases hr with h | h | h | h <;> rw [h]
    · exact act_m9 c hn ht h2 h3
    · exact act_SB c hn ht ⟨.inr h2, h3⟩
    · exact hcb 2 h1
    · exact hxx
  · -- KE
    obtain ⟨h1, h2, h3⟩ := h
    by_cases hk1 : k ≤ 1
    · exact hw 3 (by omega) h1 hk1
    have hr := row_KE ⟨k, hk⟩ (by simpa using hk1)
    simp only [List.mem_cons, List.not_mem_nil, or_false] at hr
    rw [step_black (s := 3) hc hk (by omega) hn h1 (by omega) (by rcases hr with h | h | h <;> rw [h] <;> decide)]
    rcases hr with h | h | h <;> rw [h]
    · exact act_SB c hn ht ⟨.inr h2, h3⟩
    · exact hcb 3 h1
    · exact hxx
  · -- CO
    obtain ⟨h1, h2, h3⟩ := h
    by_cases hk1 : k ≤ 1
    · exact hw 4 (by omega) h1 hk1
    have hr := row_CO ⟨k, hk⟩ (by simpa using hk1)
    simp only [List.mem_cons, List.not_mem_nil, or_false] at hr
    rw [step_black (s := 4) hc hk (by omega) hn h1 (by omega) (by rcases hr with h | h | h <;> rw [h] <;> decide)]
    rcases hr with h | h | h <;> rw [h]
    · exact act_m2 c hn ht h3
    · exact hcb 4 h1
    · exact hxx
  · -- VA
    obtain ⟨h1, h2⟩ := h
    by_cases hk1 : k ≤ 1
    · exact hw 5 (by omega) h1 hk1
    have hr := row_VA ⟨k, hk⟩ (by simpa using hk1)
    have hm := minus_class ⟨k, hk⟩
    simp only [List.mem_cons, List.not_mem_nil, or_false] at hr hm
    have hneg : entry 5 k < 0 := by
      rcases hr with (h | h | h | h | h | h | h | h | h) | ⟨h | h, _⟩ <;> rw [h] <;> decide
    rw [step_black (s := 5) hc hk (by omega) hn h1 (by omega) hneg]
    rcases hr with (h | h | h | h | h | h | h | h | h) | ⟨h | h, hd⟩ <;> rw [h]
    · exact act_m6 c hn ht h2.not_key h2.2
    · exact act_m5 c hn ht h2.not_key h2.2
    · exact act_SB c hn ht ⟨.inl h2.1, h2.2⟩
    · exact hcb 5 h1
    · have := hm (.inl h); subst this; exact R_MX hc hn ht h2
    · exact R_FA hn ht h2
    · exact R_NU hn ht h2
    · exact R_TR hn ht h2
    · exact hxx
    · exact R_ZX (hdig hd) hn ht h2
    · exact R_IX (hdig hd) hn ht h2
  · -- AR
    obtain ⟨h1, ⟨r, h2⟩, h3⟩ := h
    have h4 : VPos t.stack e := ⟨⟨r, .inl h2⟩, h3⟩
    by_cases hk1 : k ≤ 1
    · exact hw 6 (by omega) h1 hk1
    have hr := row_AR ⟨k, hk⟩ (by simpa using hk1)
    have hm := minus_class ⟨k, hk⟩
    simp only [List.mem_cons, List.not_mem_nil, or_false] at hr hm
    have hneg : entry 6 k < 0 := by
      rcases hr with (h | h | h | h | h | h | h | h | h | h) | ⟨h | h, _⟩ <;> rw [h] <;> decide
    rw [step_black (s := 6) hc hk (by omega) hn h1 (by omega) hneg]
    rcases hr with (h | h | h | h | h | h | h | h | h | h) | ⟨h | h, hd⟩ <;> rw [h]
    · exact act_m6 c hn ht h4.not_key h3
    · exact act_m5 c hn ht h4.not_key h3
    · exact act_m7 c hn (.inr ⟨ht, ⟨r, h2⟩, h3⟩)
    · exact act_SB c hn ht ⟨.inl h4.1, h3⟩
    · exact hcb 6 h1
    · have := hm (.inr h); subst this; exact R_MX hc hn ht h4
    · exact R_FA hn ht h4
    · exact R_NU hn ht h4
    · exact R_TR hn ht h4
    · exact hxx
    · exact R_ZX (hdig hd) hn ht h4
    · exact R_IX (hdig hd) hn ht h4
  · -- OK
    obtain ⟨h1, h2, h3⟩ := h
    have hst : Settle t e := ⟨by rw [h1]; decide, .inl ⟨ht, h2, h3⟩⟩
    by_cases hk1 : k ≤ 1
    · exact hw 1 (by omega) h1 hk1
    have hr := row_OK ⟨k, hk⟩ (by simpa using hk1)
    simp only [List.mem_cons, List.not_mem_nil, or_false] at hr
    rw [step_black (s := 1) hc hk (by omega) hn h1 (by omega) (by rcases hr with h | h | h | h | h <;> rw [h] <;> decide)]
    rcases hr with h | h | h | h | h <;> rw [h]
    · exact act_m8 c hn hst
    · exact act_m7 c hn (.inl hst)
    · exact act_m3 c hn hst
    · exact hcb 1 h1
    · exact hxx

/-! ### Inside scalars -/

theorem row_num : ∀ k : Fin 32,
    (entry 14 k.val ∈ [OK, -8, -7, -3, CB, XX] ∨ (entry 14 k.val = DF ∧ k.val = 13)) ∧
    (entry 15 k.val ∈ [OK, IT, -8, -7, -3, CB, DE, XX] ∨ (entry 15 k.val = DF ∧ k.val = 13)) := by
  decide +kernel
theorem row_MI : ∀ k : Fin 32,
    entry 13 k.val = XX ∨ (entry 13 k.val ∈ [ZE, IT] ∧ (k.val = 14 ∨ k.val = 15)) := by decide +kernel
theorem row_float : ∀ k : Fin 32, ∀ s ∈ [16, 17, 18, 19, 33],
    entry s k.val ∈ [OK, FR, E1, E2, E3, -8, -7, -3, CB, XX] := by decide +kernel
theorem row_tru : ∀ k : Fin 32, ∀ s ∈ [20, 21, 22],
    entry s k.val ∈ [OK, T2, T3, CB, XX] := by decide +kernel
theorem row_fals : ∀ k : Fin 32, ∀ s ∈ [23, 24, 25, 26],
    entry s k.val ∈ [OK, F2, F3, F4, CB, XX] := by decide +kernel
theorem row_null : ∀ k : Fin 32, ∀ s ∈ [27, 28, 29],
    entry s k.val ∈ [OK, N2, N3, CB, XX] := by decide +kernel
theorem row_OK' : ∀ k : Fin 32, entry 1 k.val ∈ [OK, -8, -7, -3, CB, XX] := by decide +kernel

/-- What happens on the actions that end a buffered scalar. -/
theorem scalar_acts (hn : NC t) (hty : scalarType t.type) (hp : VPos t.stack e) (hm : t.state ≠ MI)
    (hv : t.state ≠ VA) (ha : t.state ≠ AR) {n : Int} (h : n ∈ [-8, -7, -3, CB, XX]) :
    R t e (action (pushBack t c) n) := by
  have hs : Settle t e := ⟨hm, .inr ⟨hty, hp⟩⟩
  simp only [List.mem_cons, List.not_mem_nil, or_false] at h
  rcases h with rfl | rfl | rfl | rfl | rfl
  · exact act_m8 c hn hs
  · exact act_m7 c hn (.inl hs)
  · exact act_m3 c hn hs
  · refine act_CB_settle c hn hs hv ha ?_
    intro h; obtain ⟨⟨r, h1 | h1⟩, _⟩ := hp <;> rw [h] at h1 <;> simp at h1
  · rw [action_rej]; trivial

theorem R_toOK (hn : NC t) (hty : scalarType t.type) (hm : t.state ≠ MI) (hp : VPos t.stack e) :
    R t e (.cont { pushBack t c with state := OK } []) := by
  refine R_move (.inr (.inl ⟨hn, rfl, hty, hp⟩)) fun hb => bufOk_of ?_ ?_ ?_ rfl
  · intro h
    have h : t.type = .none := h
    rcases hty with h' | h' | h' | h' | h' | h' <;> rw [h] at h' <;> simp at h'
  · intro h; exact (hb.2.2.1 h hm).append [c]
  · intro h; exact (hb.2.2.2.1 h).append [c]

theorem step_pending (hc : classOf c = some (k : Int)) (hk : k < 32) (hn : NC t)
    (hs : t.state = OK) (hty : scalarType t.type) (hp : VPos t.stack e) : R t e (charStep t c) := by
  have hne : t.type ≠ .none := by
    intro h; rcases hty with h' | h' | h' | h' | h' | h' <;> rw [h] at h' <;> simp at h'
  have hm : t.state ≠ MI := by rw [hs]; decide
  rw [step_typed (s := 1) hc hk hn hne hs (by omega)]
  have hr := row_OK' ⟨k, hk⟩
  rw [List.mem_cons] at hr
  rcases hr with h | h
  · rw [show entry 1 k = OK from h, if_pos (by decide)]
    exact R_toOK hn hty hm hp
  · rw [if_neg (by revert h; generalize entry 1 k = n; simp; rintro (h | h | h | h | h) <;> subst h <;> decide)]
    exact scalar_acts hn hty hp hm (by rw [hs]; decide) (by rw [hs]; decide) h

theorem step_num {s : Nat} (hc : classOf c = some (k : Int)) (hk : k < 32) (hn : NC t)
    (hs : t.state = (s : Int)) (hs2 : s = 14 ∨ s = 15) (hty : t.type = .int ∨ t.type = .uint)
    (hp : VPos t.stack e) : R t e (charStep t c) := by
  have hne : t.type ≠ .none := by rcases hty with h | h <;> simp [h]
  have hsc : scalarType t.type := by rcases hty with h | h <;> simp [scalarType, h]
  have hm : t.state ≠ MI := by rw [hs]; rcases hs2 with rfl | rfl <;> decide
  have hv : t.state ≠ VA := by rw [hs]; rcases hs2 with rfl | rfl <;> decide
  have ha : t.state ≠ AR := by rw [hs]; rcases hs2 with rfl | rfl <;> decide
  have hnum : t.type.isNum = true := by rcases hty with h | h <;> rw [h] <;> rfl
  have hDF : k = 13 → R t e (action (pushBack t c) DF) := by
    rintro rfl
    have hc' := (class_facts c).2.1 hc
    show R t e (actFrac (pushBack t c))
    unfold actFrac assertThen
    rw [if_pos ⟨hnum, by simp [pushBack, hc']⟩]
    exact ⟨.inr (.inr (.inr (.inr (.inr (.inr (.inl ⟨hn, by simp, rfl, by simpa [pushBack] using hp⟩)))))),
      fun _ => bufOk_of nofun nofun nofun rfl⟩
  have hDE : R t e (action (pushBack t c) DE) := by
    show R t e (actExp (pushBack t c))
    unfold actExp assertThen
    rw [if_pos (by exact hnum)]
    exact ⟨.inr (.inr (.inr (.inr (.inr (.inr (.inl ⟨hn, by simp, rfl, by simpa [pushBack] using hp⟩)))))),
      fun _ => bufOk_of nofun nofun nofun rfl⟩
  rw [step_typed hc hk hn hne hs (by omega)]
  have hr := row_num ⟨k, hk⟩
  rcases hs2 with rfl | rfl
  · rcases hr.1 with h | ⟨h, h2⟩
    · rw [List.mem_cons] at h
      rcases h with h | h
      · rw [show entry 14 k = OK from h, if_pos (by decide)]
        exact R_toOK hn hsc hm hp
      · rw [if_neg (by revert h; simp only; generalize entry 14 k = n; simp; rintro (h | h | h | h | h) <;> subst h <;> decide)]
        exact scalar_acts hn hsc hp hm hv ha h
    · rw [show entry 14 k = DF from h, if_neg (by decide)]
      exact hDF h2
  · rcases hr.2 with h | ⟨h, h2⟩
    · rw [List.mem_cons, List.mem_cons] at h
      rcases h with h | h | h
      · rw [show entry 15 k = OK from h, if_pos (by decide)]
        exact R_toOK hn hsc hm hp
      · rw [show entry 15 k = IT from h, if_pos (by decide)]
        refine R_move (.inr (.inr (.inr (.inr (.inr (.inl ⟨hn, by simp, hty, hp⟩)))))) fun hb => bufOk_of ?_ ?_ ?_ rfl
        · intro h; exact absurd h hne
        · intro h; exact (hb.2.2.1 h hm).append [c]
        · intro h; exact (hb.2.2.2.1 h).append [c]
      · simp only [List.mem_cons, List.not_mem_nil, or_false] at h
        by_cases hde : entry 15 k = DE
        · rw [hde, if_neg (by decide)]; exact hDE
        · have h' : entry 15 k ∈ [-8, -7, -3, CB, XX] := by
            simp only [List.mem_cons, List.not_mem_nil, or_false]
            rcases h with h | h | h | h | h | h
            all_goals first | exact absurd h hde | simp [h]
          rw [if_neg (by revert h'; generalize entry 15 k = n; simp; rintro (h | h | h | h | h) <;> subst h <;> decide)]
          exact scalar_acts hn hsc hp hm hv ha h'
    · rw [show entry 15 k = DF from h, if_neg (by decide)]
      exact hDF h2

theorem step_MI (hc : classOf c = some (k : Int)) (hk : k < 32) (hn : NC t)
    (hs : t.state = MI) (hty : t.type = .int) (hp : VPos t.stack e) : R t e (charStep t c) := by
  rw [step_typed (s := 13) hc hk hn (by simp [hty]) hs (by omega)]
  rcases row_MI ⟨k, hk⟩ with h | ⟨h, hd⟩
  · rw [show entry 13 k = XX from h, if_neg (by decide), action_rej]; trivial
  · have hdig : isDigit c = true := by
      rcases hd with hd | hd
      · have hd : k = 14 := hd
        subst hd; exact (class_facts c).1 (.inl hc)
      · have hd : k = 15 := hd
        subst hd; exact (class_facts c).1 (.inr hc)
    have key : ∀ n, n ∈ [ZE, IT] → R t e (.cont { pushBack t c with state := n } []) := by
      intro n hn'
      refine R_move (.inr (.inr (.inr (.inr (.inr (.inl ⟨hn, hn', .inl hty, hp⟩)))))) fun hb => bufOk_of ?_ ?_ ?_ ?_
      · intro h; have h : t.type = .none := h; rw [hty] at h; cases h
      · intro h
        have := hb.2.1 hs
        exact ⟨[c], [], by simp [pushBack, this], by simp, by simpa using hdig⟩
      · intro h; have h : t.type = .uint := h; rw [hty] at h; cases h
      · simp only [List.mem_cons, List.not_mem_nil, or_false] at hn'
        rcases hn' with rfl | rfl <;> rfl
    rw [if_pos (by
      simp only [List.mem_cons, List.not_mem_nil, or_false] at h
      rcases h with h | h <;> rw [h] <;> decide)]
    exact key _ h

/-- Float, true, false and null states. -/
theorem step_word {s : Nat} {nxt : List Int} (hc : classOf c = some (k : Int)) (hk : k < 32) (hn : NC t)
    (hs : t.state = (s : Int)) (hs2 : s < 36) (hs3 : special s = false) (hs4 : (s : Int) ≠ VA ∧ (s : Int) ≠ AR)
    (hty : t.type = .float ∨ t.type = .tru ∨ t.type = .fals ∨ t.type = .null)
    (hp : VPos t.stack e) (hrow : entry s k = OK ∨ entry s k ∈ nxt ∨ entry s k ∈ [-8, -7, -3, CB, XX])
    (hnx : ∀ n ∈ nxt, 0 ≤ n ∧ special n = false ∧ Shape { pushBack t c with state := n } e) :
    R t e (charStep t c) := by
  have hne : t.type ≠ .none := by rcases hty with h | h | h | h <;> simp [h]
  have hsc : scalarType t.type := by rcases hty with h | h | h | h <;> simp [scalarType, h]
  have hm : t.state ≠ MI := by rw [hs]; intro h; rw [h] at hs3; cases hs3
  rw [step_typed hc hk hn hne hs hs2]
  rcases hrow with h | h | h
  · rw [h, if_pos (by decide)]; exact R_toOK hn hsc hm hp
  · obtain ⟨h1, h2, h3⟩ := hnx _ h
    rw [if_pos h1]
    refine R_move h3 fun hb => bufOk_of ?_ ?_ ?_ h2
    · intro h; exact absurd h hne
    · intro h; have h : t.type = .int := h
      rcases hty with h' | h' | h' | h' <;> rw [h] at h' <;> cases h'
    · intro h; have h : t.type = .uint := h
      rcases hty with h' | h' | h' | h' <;> rw [h] at h' <;> cases h'
  · rw [if_neg (by revert h; generalize entry s k = n; simp; rintro (h | h | h | h | h) <;> subst h <;> decide)]
    exact scalar_acts hn hsc hp hm (by rw [hs]; exact hs4.1) (by rw [hs]; exact hs4.2) h

theorem step_float {s : Nat} (hc : classOf c = some (k : Int)) (hk : k < 32) (hn : NC t)
    (hs : t.state = (s : Int)) (hs2 : s ∈ [16, 17, 18, 19, 33]) (hty : t.type = .float)
    (hp : VPos t.stack e) : R t e (charStep t c) := by
  have hr := row_float ⟨k, hk⟩ s hs2
  refine step_word (nxt := [FR, E1, E2, E3]) hc hk hn hs ?_ ?_ ?_ (.inl hty) hp ?_ ?_
  · simp at hs2; omega
  · simp only [List.mem_cons, List.not_mem_nil, or_false] at hs2
    rcases hs2 with rfl | rfl | rfl | rfl | rfl <;> rfl
  · simp only [List.mem_cons, List.not_mem_nil, or_false] at hs2
    rcases hs2 with rfl | rfl | rfl | rfl | rfl <;> decide
  · simp only [List.mem_cons, List.not_mem_nil, or_false] at hr ⊢
    rcases hr with h | h | h | h | h | h | h | h | h | h <;> simp [h]
  · intro n hn'
    have hsh : n ∈ [FR, E1, E2, E3, FX] := by
      simp only [List.mem_cons, List.not_mem_nil, or_false] at hn' ⊢
      rcases hn' with h | h | h | h <;> simp [h]
    refine ⟨?_, ?_, .inr (.inr (.inr (.inr (.inr (.inr (.inl ⟨hn, hsh, hty, hp⟩))))))⟩
    · simp only [List.mem_cons, List.not_mem_nil, or_false] at hn'
      rcases hn' with rfl | rfl | rfl | rfl <;> decide
    · simp only [List.mem_cons, List.not_mem_nil, or_false] at hn'
      rcases hn' with rfl | rfl | rfl | rfl <;> rfl

theorem step_tru {s : Nat} (hc : classOf c = some (k : Int)) (hk : k < 32) (hn : NC t)
    (hs : t.state = (s : Int)) (hs2 : s ∈ [20, 21, 22]) (hty : t.type = .tru)
    (hp : VPos t.stack e) : R t e (charStep t c) := by
  have hr := row_tru ⟨k, hk⟩ s hs2
  refine step_word (nxt := [T2, T3]) hc hk hn hs ?_ ?_ ?_ (.inr (.inl hty)) hp ?_ ?_
  · simp at hs2; omega
  · simp only [List.mem_cons, List.not_mem_nil, or_false] at hs2
    rcases hs2 with rfl | rfl | rfl <;> rfl
  · simp only [List.mem_cons, List.not_mem_nil, or_false] at hs2
    rcases hs2 with rfl | rfl | rfl <;> decide
  · simp only [List.mem_cons, List.not_mem_nil, or_false] at hr ⊢
    rcases hr with h | h | h | h | h <;> simp [h]
  · intro n hn'
    have hsh : n ∈ [T1, T2, T3] := by
      simp only [List.mem_cons, List.not_mem_nil, or_false] at hn' ⊢
      rcases hn' with h | h <;> simp [h]
    refine ⟨?_, ?_, .inr (.inr (.inr (.inr (.inr (.inr (.inr (.inl ⟨hn, hsh, hty, hp⟩)))))))⟩
    · simp only [List.mem_cons, List.not_mem_nil, or_false] at hn'
      rcases hn' with rfl | rfl <;> decide
    · simp only [List.mem_cons, List.not_mem_nil, or_false] at hn'
      rcases hn' with rfl | rfl <;> rfl

theorem step_fals {s : Nat} (hc : classOf c = some (k : Int)) (hk : k < 32) (hn : NC t)
    (hs : t.state = (s : Int)) (hs2 : s ∈ [23, 24, 25, 26]) (hty : t.type = .fals)
    (hp : VPos t.stack e) : R t e (charStep t c) := by
  have hr := row_fals ⟨k, hk⟩ s hs2
  refine step_word (nxt := [F2, F3, F4]) hc hk hn hs ?_ ?_ ?_ (.inr (.inr (.inl hty))) hp ?_ ?_
  · simp at hs2; omega
  · simp only [List.mem_cons, List.not_mem_nil, or_false] at hs2
    rcases hs2 with rfl | rfl | rfl | rfl <;> rfl
  · simp only [List.mem_cons, List.not_mem_nil, or_false] at hs2
    rcases hs2 with rfl | rfl | rfl | rfl <;> decide
  · simp only [List.mem_cons, List.not_mem_nil, or_false] at hr ⊢
    rcases hr with h | h | h | h | h | h <;> simp [h]
  · intro n hn'
    have hsh : n ∈ [F1, F2, F3, F4] := by
      simp only [List.mem_cons, List.not_mem_nil, or_false] at hn' ⊢
      rcases hn' with h | h | h <;> simp [h]
    refine ⟨?_, ?_, .inr (.inr (.inr (.inr (.inr (.inr (.inr (.inr (.inl ⟨hn, hsh, hty, hp⟩))))))))⟩
    · simp only [List.mem_cons, List.not_mem_nil, or_false] at hn'
      rcases hn' with rfl | rfl | rfl <;> decide
    · simp only [List.mem_cons, List.not_mem_nil, or_false] at hn'
      rcases hn' with rfl | rfl | rfl <;> rfl

theorem step_null {s : Nat} (hc : classOf c = some (k : Int)) (hk : k < 32) (hn : NC t)
    (hs : t.state = (s : Int)) (hs2 : s ∈ [27, 28, 29]) (hty : t.type = .null)
    (hp : VPos t.stack e) : R t e (charStep t c) := by
  have hr := row_null ⟨k, hk⟩ s hs2
  refine step_word (nxt := [N2, N3]) hc hk hn hs ?_ ?_ ?_ (.inr (.inr (.inr hty))) hp ?_ ?_
  · simp at hs2; omega
  · simp only [List.mem_cons, List.not_mem_nil, or_false] at hs2
    rcases hs2 with rfl | rfl | rfl <;> rfl
  · simp only [List.mem_cons, List.not_mem_nil, or_false] at hs2
    rcases hs2 with rfl | rfl | rfl <;> decide
  · simp only [List.mem_cons, List.not_mem_nil, or_false] at hr ⊢
    rcases hr with h | h | h | h | h <;> simp [h]
  · intro n hn'
    have hsh : n ∈ [N1, N2, N3] := by
      simp only [List.mem_cons, List.not_mem_nil, or_false] at hn' ⊢
      rcases hn' with h | h <;> simp [h]
    refine ⟨?_, ?_, .inr (.inr (.inr (.inr (.inr (.inr (.inr (.inr (.inr (.inl ⟨hn, hsh, hty, hp⟩)))))))))⟩
    · simp only [List.mem_cons, List.not_mem_nil, or_false] at hn'
      rcases hn' with rfl | rfl <;> decide
    · simp only [List.mem_cons, List.not_mem_nil, or_false] at hn'
      rcases hn' with rfl | rfl <;> rfl

/-! ### Comments -/

theorem row_C : ∀ k : Fin 32, ∀ s ∈ [30, 31, 32], entry s k.val ∈ [C2, C3, CE, XX] := by decide +kernel

theorem step_comment {s : Nat} (hc : classOf c = some (k : Int)) (hk : k < 32) (h1 : t.escaped = false)
    (h2 : t.comment = true) (hs : t.state = (s : Int)) (hs2 : s ∈ [30, 31, 32]) (hty : t.type = .none)
    (hp : Pos t.bcs t.stack e) : R t e (charStep t c) := by
  rw [charStep_eq hc hk (addChar_comment c k h1 h2) hs (by simp at hs2; omega)]
  have hr := row_C ⟨k, hk⟩ s hs2
  simp only [List.mem_cons, List.not_mem_nil, or_false] at hr
  have mv : ∀ n, n ∈ [C1, C2, C3] → special n = false → R t e (.cont { t with state := n } []) := by
    intro n hn hsp
    refine ⟨.inr (.inr (.inr (.inr (.inr (.inr (.inr (.inr (.inr (.inr ⟨h1, h2, hn, hty, by simpa using hp⟩))))))))), fun hb => ?_⟩
    exact bufOk_idle hty (hb.1 hty) hsp
  rcases hr with h | h | h | h <;> rw [h]
  · rw [if_pos (by decide)]; exact mv _ (by simp) rfl
  · rw [if_pos (by decide)]; exact mv _ (by simp) rfl
  · rw [if_neg (by decide)]; exact act_CE h1 hty hp
  · rw [if_neg (by decide), action_rej]; trivial

/-! ### Strings -/

theorem row_ST : ∀ k : Fin 32, entry 7 k.val ∈ [ST, -4, EX, XX] := by decide +kernel
theorem row_ES : ∀ k : Fin 32, entry 8 k.val ∈ [ST, XX] ∨ (entry 8 k.val = U1 ∧ k.val = 27) := by
  decide +kernel
theorem row_U : ∀ k : Fin 32, ∀ s ∈ [9, 10, 11, 12],
    entry s k.val = XX ∨ (k.val ∈ [14,15,16,17,18,19,20,21,28,29] ∧
      entry s k.val = if s = 12 then UC else (s : Int) + 1) := by decide +kernel
theorem row_D : ∀ k : Fin 32, entry 34 k.val ∈ [D2, XX] ∧ entry 35 k.val ∈ [U1, XX] := by
  decide +kernel

theorem shape_str {n : Int} (hn : NC t) (hm : n ∈ [ST, D1, D2, U1, U2, U3, U4]) (ht : t.type = .string)
    (hp : SPos t.stack e) (b : Bytes) (h : Nat) :
    Shape { t with state := n, buf := b, hs := h } e := .inr (.inr (.inl ⟨hn, hm, ht, hp⟩))

theorem bufOk_str {n : Int} {b : Bytes} {h : Nat} (ht : t.type = .string) (hs : special n = false) :
    BufOk { t with state := n, buf := b, hs := h } :=
  bufOk_of (by intro h; have h : t.type = .none := h; rw [ht] at h; cases h)
    (by intro h; have h : t.type = .int := h; rw [ht] at h; cases h)
    (by intro h; have h : t.type = .uint := h; rw [ht] at h; cases h) hs

/-- The buffer condition of the states inside a string. -/
theorem bufOk_str' (ht : t.type = .string) (hM : t.state ≠ MI)
    (h1 : t.state = ES → t.buf ≠ []) (h2 : t.state = D2 → t.buf ≠ [])
    (h3 : t.state = U1 → HexTail 0 t.buf) (h4 : t.state = U2 → HexTail 1 t.buf)
    (h5 : t.state = U3 → HexTail 2 t.buf) (h6 : t.state = U4 → HexTail 3 t.buf) : BufOk t := by
  simp only [BufOk, ht]
  exact ⟨nofun, fun h => absurd h hM, nofun, nofun, h1, h2, h3, h4, h5, h6⟩

theorem step_ST (hc : classOf c = some (k : Int)) (hk : k < 32) (hn : NC t)
    (hs : t.state = ST) (hty : t.type = .string) (hp : SPos t.stack e) : R t e (charStep t c) := by
  rw [step_typed (s := 7) hc hk hn (by simp [hty]) hs (by omega)]
  have hr := row_ST ⟨k, hk⟩
  simp only [List.mem_cons, List.not_mem_nil, or_false] at hr
  rcases hr with h | h | h | h <;> rw [h]
  · rw [if_pos (by decide)]
    exact R_move (shape_str hn (by simp) hty hp _ _) fun _ => bufOk_str hty rfl
  · rw [if_neg (by decide)]; exact act_m4 c hn hty hp
  · rw [if_neg (by decide)]
    refine ⟨.inr (.inr (.inr (.inl ⟨rfl, hn.2, rfl, hty, by simpa [pushBack] using hp⟩))), fun _ => ?_⟩
    exact bufOk_str' hty nofun (fun _ => by simp [pushBack]) nofun nofun nofun nofun nofun
  · rw [if_neg (by decide), action_rej]; trivial

theorem step_D {s : Nat} (hc : classOf c = some (k : Int)) (hk : k < 32) (hn : NC t)
    (hs : t.state = (s : Int)) (hs2 : s = 34 ∨ s = 35) (hty : t.type = .string) (hp : SPos t.stack e) :
    R t e (charStep t c) := by
  rw [step_typed hc hk hn (by simp [hty]) hs (by omega)]
  have hr := row_D ⟨k, hk⟩
  simp only [List.mem_cons, List.not_mem_nil, or_false] at hr
  rcases hs2 with rfl | rfl
  · rcases hr.1 with h | h <;> rw [h]
    · rw [if_pos (by decide)]
      refine R_move (shape_str hn (by simp) hty hp _ _) fun _ => ?_
      exact bufOk_str' hty nofun nofun (fun _ => by simp [pushBack]) nofun nofun nofun nofun
    · rw [if_neg (by decide), action_rej]; trivial
  · rcases hr.2 with h | h <;> rw [h]
    · rw [if_pos (by decide)]
      refine R_move (shape_str hn (by simp) hty hp _ _) fun hb => ?_
      refine bufOk_str' hty nofun nofun nofun (fun _ => ?_) nofun nofun nofun
      have : t.buf ≠ [] := hb.2.2.2.2.2.1 hs
      refine ⟨?_, by simp [pushBack]⟩
      have : 0 < t.buf.length := List.length_pos_iff.2 this
      simp [pushBack]; omega
    · rw [if_neg (by decide), action_rej]; trivial

theorem step_U {s : Nat} (hc : classOf c = some (k : Int)) (hk : k < 32) (hn : NC t)
    (hs : t.state = (s : Int)) (hs2 : s ∈ [9, 10, 11, 12]) (hty : t.type = .string) (hp : SPos t.stack e) :
    R t e (charStep t c) := by
  rw [step_typed hc hk hn (by simp [hty]) hs (by simp at hs2; omega)]
  rcases row_U ⟨k, hk⟩ s hs2 with h | ⟨hh, h⟩
  · rw [show entry s k = XX from h, if_neg (by decide), action_rej]; trivial
  · have hx : hexVal c < 16 := by
      apply (class_facts c).2.2.2.2
      refine ⟨(k : Int), ?_, hc⟩
      simp only [List.mem_cons, List.not_mem_nil, or_false] at hh ⊢
      omega
    simp only [List.mem_cons, List.not_mem_nil, or_false] at hs2
    rcases hs2 with rfl | rfl | rfl | rfl
    · rw [show entry 9 k = U2 from h, if_pos (by decide)]
      refine R_move (shape_str hn (by simp) hty hp _ _) fun hb => ?_
      exact bufOk_str' hty nofun nofun nofun nofun
        (fun _ => (hb.2.2.2.2.2.2.1 hs).push hx) nofun nofun
    · rw [show entry 10 k = U3 from h, if_pos (by decide)]
      refine R_move (shape_str hn (by simp) hty hp _ _) fun hb => ?_
      exact bufOk_str' hty nofun nofun nofun nofun nofun
        (fun _ => (hb.2.2.2.2.2.2.2.1 hs).push hx) nofun
    · rw [show entry 11 k = U4 from h, if_pos (by decide)]
      refine R_move (shape_str hn (by simp) hty hp _ _) fun hb => ?_
      exact bufOk_str' hty nofun nofun nofun nofun nofun nofun
        (fun _ => (hb.2.2.2.2.2.2.2.2.1 hs).push hx)
    · rw [show entry 12 k = UC from h, if_neg (by decide)]
      show R t e (actUnicode (pushBack t c))
      unfold actUnicode
      cases hd : decodeUnicode (pushBack t c) with
      | ub =>
        intro hb
        have h4 : HexTail 4 (pushBack t c).buf := (hb.2.2.2.2.2.2.2.2.2 hs).push hx
        rcases decode_safe _ h4 with ⟨b, hs, h⟩ | ⟨t', h⟩ <;> rw [h] at hd <;> cases hd
      | bad t' => trivial
      | good t' =>
        have hform : ∃ b h, t' = { pushBack t c with buf := b, hs := h } := by
          by_cases hx : ∃ b h, decodeUnicode (pushBack t c) = .good { pushBack t c with buf := b, hs := h }
          · obtain ⟨b, h, hx⟩ := hx
            rw [hx] at hd; cases hd; exact ⟨b, h, rfl⟩
          · exfalso
            apply hx
            have := hd
            unfold decodeUnicode at this
            simp only at this
            repeat' split at this
            all_goals first
              | (cases this; done)
              | exact ⟨_, _, hd.trans this.symm⟩
        obtain ⟨b, h', rfl⟩ := hform
        simp only
        split
        · exact ⟨by rw [List.append_nil]; exact shape_str hn (by simp) hty hp _ _, fun _ => bufOk_str hty rfl⟩
        · exact ⟨by rw [List.append_nil]; exact shape_str hn (by simp) hty hp _ _, fun _ => bufOk_str hty rfl⟩

theorem addEscaped_good {t1 : Tok} (h : addEscaped t c = .good t1) :
    ∃ b, t1 = { t with escaped := false, buf := b } ∧ (c = 0x75 → 2 ≤ b.length) := by
  unfold addEscaped at h
  split at h
  · cases h
  · rename_i t2 h2
    have e2 : t2 = { t with escaped := false, buf := t.buf.dropLast } := by
      unfold popBack at h2
      split at h2
      · cases h2
      · cases h2; rfl
    subst e2
    repeat' split at h
    all_goals cases h
    all_goals refine ⟨_, rfl, fun h => ?_⟩
    all_goals first
      | (rename_i hc; rw [h] at hc; exact absurd hc (by decide))
      | (simp [pushBack]; done)

theorem step_ES (hc : classOf c = some (k : Int)) (hk : k < 32) (h1 : t.escaped = true)
    (h2 : t.comment = false) (hs : t.state = ES) (hty : t.type = .string) (hp : SPos t.stack e) :
    R t e (charStep t c) := by
  have ha : addChar t c k = addEscaped t c := by simp [addChar, h1]
  cases he : addEscaped t c with
  | ub =>
    unfold charStep
    rw [hc]
    simp only
    rw [if_neg (by omega), ha, he]
    intro hb
    have hb := hb.2.2.2.2.1 hs
    unfold addEscaped at he
    simp only [popBack, hb, if_false] at he
    repeat' split at he
    all_goals cases he
  | bad t' =>
    unfold charStep
    rw [hc]
    simp only
    rw [if_neg (by omega), ha, he]
    trivial
  | good t' =>
    obtain ⟨b, rfl, hb2⟩ := addEscaped_good he
    rw [charStep_eq (s := 8) hc hk (ha.trans he) hs (by omega)]
    have hn : NC { t with escaped := false } := ⟨rfl, h2⟩
    rcases row_ES ⟨k, hk⟩ with h | ⟨h, hu⟩
    · simp only [List.mem_cons, List.not_mem_nil, or_false] at h
      rcases h with h | h <;> rw [h]
      · rw [if_pos (by decide)]
        exact ⟨by rw [List.append_nil]; exact shape_str (t := { t with escaped := false }) hn (by simp) hty hp _ _,
          fun _ => bufOk_str (t := { t with escaped := false }) hty rfl⟩
      · rw [if_neg (by decide), action_rej]; trivial
    · have hu : k = 27 := hu
      subst hu
      have hcu := (class_facts c).2.2.2.1 hc
      rw [show entry 8 27 = U1 from h, if_pos (by decide)]
      refine ⟨by rw [List.append_nil]; exact shape_str (t := { t with escaped := false }) hn (by simp) hty hp _ _, fun _ => ?_⟩
      exact bufOk_str' hty nofun nofun nofun (fun _ => ⟨hb2 hcu, by simp⟩) nofun nofun nofun

end

/-- One character from a state satisfying the invariant. -/
theorem step_R {t : Tok} {e : List JEv} (c : UInt8) (h : Shape t e) : R t e (charStep t c) := by
  obtain ⟨k, hc, hk1, hk2⟩ := class_ok c
  by_cases hk : k = -1
  · subst hk
    unfold charStep
    rw [hc]
    simp [R]
  obtain ⟨n, rfl⟩ := Int.eq_ofNat_of_zero_le (show 0 ≤ k by omega)
  have hk : n < 32 := by omega
  rcases h with ⟨h1, h2, h3⟩ | ⟨h1, h2, h3, h4⟩ | ⟨h1, h2, h3, h4⟩ | ⟨h1, h2, h3, h4, h5⟩ | ⟨h1, h2, h3, h4⟩ |
    ⟨h1, h2, h3, h4⟩ | ⟨h1, h2, h3, h4⟩ | ⟨h1, h2, h3, h4⟩ | ⟨h1, h2, h3, h4⟩ | ⟨h1, h2, h3, h4⟩ | ⟨h1, h2, h3, h4, h5⟩
  · exact step_idle hc hk h1 h2 h3
  · exact step_pending hc hk h1 h2 h3 h4
  · simp only [List.mem_cons, List.not_mem_nil, or_false] at h2
    rcases h2 with h2 | h2 | h2 | h2 | h2 | h2 | h2
    · exact step_ST hc hk h1 h2 h3 h4
    · exact step_D (s := 34) hc hk h1 h2 (by simp) h3 h4
    · exact step_D (s := 35) hc hk h1 h2 (by simp) h3 h4
    · exact step_U (s := 9) hc hk h1 h2 (by simp) h3 h4
    · exact step_U (s := 10) hc hk h1 h2 (by simp) h3 h4
    · exact step_U (s := 11) hc hk h1 h2 (by simp) h3 h4
    · exact step_U (s := 12) hc hk h1 h2 (by simp) h3 h4
  · exact step_ES hc hk h1 h2 h3 h4 h5
  · exact step_MI hc hk h1 h2 h3 h4
  · simp only [List.mem_cons, List.not_mem_nil, or_false] at h2
    rcases h2 with h2 | h2
    · exact step_num (s := 14) hc hk h1 h2 (by simp) h3 h4
    · exact step_num (s := 15) hc hk h1 h2 (by simp) h3 h4
  · simp only [List.mem_cons, List.not_mem_nil, or_false] at h2
    rcases h2 with h2 | h2 | h2 | h2 | h2
    · exact step_float (s := 16) hc hk h1 h2 (by simp) h3 h4
    · exact step_float (s := 17) hc hk h1 h2 (by simp) h3 h4
    · exact step_float (s := 18) hc hk h1 h2 (by simp) h3 h4
    · exact step_float (s := 19) hc hk h1 h2 (by simp) h3 h4
    · exact step_float (s := 33) hc hk h1 h2 (by simp) h3 h4
  · simp only [List.mem_cons, List.not_mem_nil, or_false] at h2
    rcases h2 with h2 | h2 | h2
    · exact step_tru (s := 20) hc hk h1 h2 (by simp) h3 h4
    · exact step_tru (s := 21) hc hk h1 h2 (by simp) h3 h4
    · exact step_tru (s := 22) hc hk h1 h2 (by simp) h3 h4
  · simp only [List.mem_cons, List.not_mem_nil, or_false] at h2
    rcases h2 with h2 | h2 | h2 | h2
    · exact step_fals (s := 23) hc hk h1 h2 (by simp) h3 h4
    · exact step_fals (s := 24) hc hk h1 h2 (by simp) h3 h4
    · exact step_fals (s := 25) hc hk h1 h2 (by simp) h3 h4
    · exact step_fals (s := 26) hc hk h1 h2 (by simp) h3 h4
  · simp only [List.mem_cons, List.not_mem_nil, or_false] at h2
    rcases h2 with h2 | h2 | h2
    · exact step_null (s := 27) hc hk h1 h2 (by simp) h3 h4
    · exact step_null (s := 28) hc hk h1 h2 (by simp) h3 h4
    · exact step_null (s := 29) hc hk h1 h2 (by simp) h3 h4
  · simp only [List.mem_cons, List.not_mem_nil, or_false] at h3
    rcases h3 with h3 | h3 | h3
    · exact step_comment (s := 30) hc hk h1 h2 h3 (by simp) h4 h5
    · exact step_comment (s := 31) hc hk h1 h2 h3 (by simp) h4 h5
    · exact step_comment (s := 32) hc hk h1 h2 h3 (by simp) h4 h5

end Verif.JsonTok
