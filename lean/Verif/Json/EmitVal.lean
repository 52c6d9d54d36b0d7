import Verif.Json.EmitParse
/-!
# Reading back emitted values (lemmas for C01, C02, C06)
-/

namespace Verif.JsonTok
open Verif.B64Spec (digit)
open Verif.JsonDrv Verif.Build Verif.JsonEmit

/-! ## Numbers -/

theorem digit_row (b : UInt8) (h : isDigit b = true) : ∃ k : Fin 32, classOf b = some (k.val : Int) ∧
    ¬ ((k.val : Int) = 0 ∨ (k.val : Int) = 1) ∧
    entry 15 k = IT ∧ entry 16 k = FR ∧ entry 33 k = FR ∧ entry 17 k = E3 ∧ entry 18 k = E3 ∧ entry 19 k = E3 ∧
    (b ≠ 48 → entry 13 k = IT ∧ entry 5 k = IX ∧ entry 6 k = IX) := by
  have key : ∀ b : Fin 256, isDigit (UInt8.ofNat b.val) = true →
      ∃ k : Fin 32, classOf (UInt8.ofNat b.val) = some (k.val : Int) ∧
      ¬ ((k.val : Int) = 0 ∨ (k.val : Int) = 1) ∧
      entry 15 k = IT ∧ entry 16 k = FR ∧ entry 33 k = FR ∧ entry 17 k = E3 ∧ entry 18 k = E3 ∧ entry 19 k = E3 ∧
      (UInt8.ofNat b.val ≠ 48 → entry 13 k = IT ∧ entry 5 k = IX ∧ entry 6 k = IX) := by decide +kernel
  have := key ⟨b.toNat, b.toNat_lt⟩
  simp only [show UInt8.ofNat b.toNat = b by simp] at this
  exact this h

/-- Digits move between number states as the table says. -/
theorem digit_step (s s' : Nat) (hs : (s, s') ∈ [(15, 15), (16, 16), (33, 16), (17, 19), (18, 19), (19, 19)])
    (ty : JT) (hty : ty ≠ .none) (stk : List Mode) (buf : Bytes) (b : UInt8) (h : isDigit b = true) :
    charStep (P (s : Int) ty stk buf) b = .cont (P (s' : Int) ty stk (buf ++ [b])) [] := by
  obtain ⟨k, c, _, e1, e2, e3, e4, e5, e6, _⟩ := digit_row b h
  have hlt : s < 36 := by
    simp only [List.mem_cons, Prod.mk.injEq, List.not_mem_nil, or_false] at hs; omega
  rw [charStep_eq c k.isLt (addChar_typed b k ⟨rfl, rfl⟩ hty) (s := s) rfl hlt]
  simp only [List.mem_cons, Prod.mk.injEq, List.not_mem_nil, or_false] at hs
  rcases hs with ⟨rfl, rfl⟩ | ⟨rfl, rfl⟩ | ⟨rfl, rfl⟩ | ⟨rfl, rfl⟩ | ⟨rfl, rfl⟩ | ⟨rfl, rfl⟩
  · rw [e1]; rfl
  · rw [e2]; rfl
  · rw [e3]; rfl
  · rw [e4]; rfl
  · rw [e5]; rfl
  · rw [e6]; rfl

theorem digits_stay {n : Nat} (s : Nat) (hs : s ∈ [15, 16, 19]) (ty : JT) (hty : ty ≠ .none)
    (stk : List Mode) (hn : n ≤ stk.length) (buf ds : Bytes) (h : ∀ b ∈ ds, isDigit b = true) :
    Steps n (P (s : Int) ty stk buf) ds (P (s : Int) ty stk (buf ++ ds)) [] := by
  induction ds generalizing buf with
  | nil => simpa using Steps.nil _
  | cons b ds ih =>
    have hs' : (s, s) ∈ [(15, 15), (16, 16), (33, 16), (17, 19), (18, 19), (19, 19)] := by
      simp only [List.mem_cons, List.not_mem_nil, or_false] at hs
      rcases hs with rfl | rfl | rfl <;> simp
    refine .cons' (digit_step s s hs' ty hty stk buf b (h b (by simp))) hn ?_
    simpa using ih (buf ++ [b]) (fun x hx => h x (by simp [hx]))

theorem intPart_natDec (n : Nat) : IntPart (natDec n) := by
  by_cases h : n = 0
  · subst h; left; decide +kernel
  · right
    obtain ⟨b, bs, h1, h2, h3⟩ := natDec_head n (by omega)
    exact ⟨b, bs, h1, h3, by rw [← h1]; exact natDec_all_digits n⟩

theorem first_digit (s : Int) (hs : s = VA ∨ s = AR) (stk : List Mode) (d : UInt8) (hd : isDigit d = true)
    (h0 : d ≠ 48) : charStep (T s stk) d = .cont (P IT .uint stk [d]) [] := by
  obtain ⟨k, c, hk, _, _, _, _, _, _, e⟩ := digit_row d hd
  obtain ⟨_, e1, e2⟩ := e h0
  rcases hs with rfl | rfl
  · rw [charStep_eq c k.isLt (addChar_black d k ⟨rfl, rfl⟩ hk) (s := 5) rfl (by decide), e1]; rfl
  · rw [charStep_eq c k.isLt (addChar_black d k ⟨rfl, rfl⟩ hk) (s := 6) rfl (by decide), e2]; rfl

theorem int_unsigned {n : Nat} (s : Int) (hs : s = VA ∨ s = AR) (stk : List Mode) (hn : n ≤ stk.length)
    (ip : Bytes) (h : IntPart ip) :
    ∃ s', (s' = ZE ∨ s' = IT) ∧ Steps n (T s stk) ip (P s' .uint stk ip) [] := by
  rcases h with rfl | ⟨d, ds, rfl, h0, hd⟩
  · refine ⟨ZE, .inl rfl, .one ?_ hn⟩
    rcases hs with rfl | rfl <;> rfl
  · refine ⟨IT, .inr rfl, .cons' (first_digit s hs stk d (hd d (by simp)) h0) hn ?_⟩
    have := digits_stay (n := n) 15 (by simp) .uint (by simp) stk hn [d] ds (fun b hb => hd b (by simp [hb]))
    simpa using this

theorem int_signed {n : Nat} (s : Int) (hs : s = VA ∨ s = AR) (stk : List Mode) (hn : n ≤ stk.length)
    (ip : Bytes) (h : IntPart ip) :
    ∃ s', (s' = ZE ∨ s' = IT) ∧ Steps n (T s stk) (45 :: ip) (P s' .int stk (45 :: ip)) [] := by
  have h1 : charStep (T s stk) 45 = .cont (P MI .int stk [45]) [] := by rcases hs with rfl | rfl <;> rfl
  rcases h with rfl | ⟨d, ds, rfl, h0, hd⟩
  · exact ⟨ZE, .inl rfl, .cons' h1 hn (.one rfl hn)⟩
  · refine ⟨IT, .inr rfl, .cons' h1 hn (.cons' (t1 := P IT .int stk [45, d]) ?_ hn ?_)⟩
    · obtain ⟨k, c, hk, _, _, _, _, _, _, e⟩ := digit_row d (hd d (by simp))
      rw [charStep_eq c k.isLt (addChar_typed d k ⟨rfl, rfl⟩ (by simp)) (s := 13) rfl (by decide), (e h0).1]; rfl
    · have := digits_stay (n := n) 15 (by simp) .int (by simp) stk hn [45, d] ds (fun b hb => hd b (by simp [hb]))
      simpa using this

theorem ws_not_digit {ws : Bytes} (h : WS ws) : ∀ b, ws.head? = some b → isDigit b = false := by
  intro b hb
  have : b ∈ ws := List.mem_of_mem_head? hb
  rcases h b this with rfl | rfl <;> decide

theorem scanDec_pos (lo hi : Int) (n : Nat) (ws : Bytes) (hw : WS ws) (h1 : lo ≤ n) (h2 : (n : Int) ≤ hi) :
    scanDec lo hi (natDec n ++ ws) = some (n : Int) := by
  have hd := natDec_all_digits n
  have hs := spanDigits_append hd ws (ws_not_digit hw)
  have hv := decVal_natDec_acc n
  have hne := natDec_ne_nil n
  generalize natDec n = l at *
  cases l with
  | nil => contradiction
  | cons b bs =>
    have hb := hd b (by simp)
    have e : skipSpace (b :: bs ++ ws) = b :: bs ++ ws := by simp [skipSpace, isSpace_of_isDigit hb]
    have h45 : b ≠ 45 := by rintro rfl; revert hb; decide
    have h43 : b ≠ 43 := by rintro rfl; revert hb; decide
    unfold scanDec
    simp only [e]
    split
    · rename_i h3; simp at h3; exact absurd h3.1 h45
    · rename_i h3; simp at h3; exact absurd h3.1 h43
    · simp only [hs, hv]
      rw [if_neg (by simp)]
      simp only [Bool.false_eq_true, if_false]
      rw [if_neg (by omega), if_neg (by omega)]

theorem scanDec_neg (lo hi : Int) (n : Nat) (ws : Bytes) (hw : WS ws) (h1 : lo ≤ -(n : Int)) (h2 : -(n : Int) ≤ hi) :
    scanDec lo hi (45 :: natDec n ++ ws) = some (-(n : Int)) := by
  have hs := spanDigits_append (natDec_all_digits n) ws (ws_not_digit hw)
  have e : skipSpace (45 :: natDec n ++ ws) = 45 :: (natDec n ++ ws) := by simp [skipSpace, isSpace]
  unfold scanDec
  simp only [e, hs, decVal_natDec_acc]
  rw [if_neg (natDec_ne_nil n)]
  simp only [if_true]
  rw [if_neg (by omega), if_neg (by omega)]

/-! ## Floating-point text -/

theorem point_step (s : Int) (hs : s = ZE ∨ s = IT) (ty : JT) (hty : ty = .int ∨ ty = .uint)
    (stk : List Mode) (buf : Bytes) :
    charStep (P s ty stk buf) 46 = .cont (P FX .float stk (buf ++ [46])) [] := by
  have e : charStep (P s ty stk buf) 46 = actFrac (P s ty stk (buf ++ [46])) := by
    rcases hs with rfl | rfl <;> rcases hty with rfl | rfl <;> rfl
  rw [e]; unfold actFrac
  have : ty.isNum = true := by rcases hty with rfl | rfl <;> rfl
  simp [assertThen, this]

theorem float_steps {n : Nat} (s : Int) (hs : s = VA ∨ s = AR) (stk : List Mode) (hn : n ≤ stk.length)
    (t : Bytes) (h : FloatText t) : ∃ s' ∈ endStates, Steps n (T s stk) t (P s' .float stk t) [] := by
  obtain ⟨sg, ip, fp, ex, rfl, hsg, hip, hfp, hex⟩ := h
  -- up to the point
  have a1 : ∃ s1 ty, (s1 = ZE ∨ s1 = IT) ∧ (ty = .int ∨ ty = .uint) ∧
      Steps n (T s stk) (sg ++ ip) (P s1 ty stk (sg ++ ip)) [] := by
    rcases hsg with rfl | rfl
    · obtain ⟨s1, h1, h2⟩ := int_unsigned s hs stk hn ip hip
      exact ⟨s1, .uint, h1, .inr rfl, h2⟩
    · obtain ⟨s1, h1, h2⟩ := int_signed s hs stk hn ip hip
      exact ⟨s1, .int, h1, .inl rfl, h2⟩
  obtain ⟨s1, ty, h1, h2, a1⟩ := a1
  have a2 := a1.append' (.one (point_step s1 h1 ty h2 stk (sg ++ ip)) hn)
  -- the fraction
  have a3 : ∃ s2 : Nat, (s2 = 33 ∨ s2 = 16) ∧
      Steps n (T s stk) (sg ++ ip ++ [46] ++ fp) (P (s2 : Int) .float stk (sg ++ ip ++ [46] ++ fp)) [] := by
    cases fp with
    | nil => exact ⟨33, .inl rfl, by simpa using a2⟩
    | cons d ds =>
      refine ⟨16, .inr rfl, a2.append' (.cons' (digit_step 33 16 (by simp) .float (by simp) stk _ d (hfp d (by simp))) hn ?_)⟩
      have := digits_stay (n := n) 16 (by simp) .float (by simp) stk hn (sg ++ ip ++ [46] ++ [d]) ds
        (fun b hb => hfp b (by simp [hb]))
      simpa using this
  obtain ⟨s2, h3, a3⟩ := a3
  -- the exponent
  rcases hex with rfl | ⟨x, sn, ds, rfl, hx, hsn, hds, hd⟩
  · refine ⟨(s2 : Int), ?_, by simpa using a3⟩
    rcases h3 with rfl | rfl <;> simp [endStates]
  · refine ⟨E3, by simp [endStates], a3.append' ?_⟩
    generalize sg ++ ip ++ [46] ++ fp = buf
    have b1 : charStep (P (s2 : Int) .float stk buf) x = .cont (P E1 .float stk (buf ++ [x])) [] := by
      rcases h3 with rfl | rfl <;> rcases hx with rfl | rfl <;> rfl
    refine .cons' b1 hn ?_
    obtain ⟨d, ds, rfl⟩ := List.exists_cons_of_ne_nil hds
    have b2 := fun buf => digits_stay (n := n) 19 (by simp) .float (by simp) stk hn buf ds (fun b hb => hd b (by simp [hb]))
    have e17 := fun buf => digit_step 17 19 (by simp) .float (by simp) stk buf d (hd d (by simp))
    have e18 := fun buf => digit_step 18 19 (by simp) .float (by simp) stk buf d (hd d (by simp))
    rcases hsn with rfl | rfl | rfl
    · have := Steps.cons' (e17 (buf ++ [x])) hn (b2 _)
      simpa using this
    · have := Steps.cons' (n := n) (t := P E1 .float stk (buf ++ [x])) (c := 43)
        (t1 := P E2 .float stk (buf ++ [x] ++ [43])) rfl hn
        (.cons' (e18 _) hn (b2 _))
      simpa using this
    · have := Steps.cons' (n := n) (t := P E1 .float stk (buf ++ [x])) (c := 45)
        (t1 := P E2 .float stk (buf ++ [x] ++ [45])) rfl hn
        (.cons' (e18 _) hn (b2 _))
      simpa using this

theorem takeWhile_plain {s : Bytes} (h : (0 : UInt8) ∉ s) : cstr s = s := by
  unfold cstr
  induction s with
  | nil => rfl
  | cons x s ih =>
    simp only [List.mem_cons, not_or] at h
    rw [List.takeWhile_cons_of_pos (by simp; exact fun e => h.1 e.symm), ih h.2]

theorem emitString_text {s : Bytes} (h : PlainStr s) :
    text (emitString s) = [0x22] ++ s.flatMap escChar ++ [0x22] := by
  unfold emitString
  simp only [takeWhile_plain h.1]
  rw [Nat.mod_eq_of_lt h.2, List.take_length]
  have : ∀ s : Bytes, text (s.map fun b => Chunk.raw (escChar b)) = s.flatMap escChar := by
    intro s
    induction s with
    | nil => rfl
    | cons b s ih => simp [ih, Chunk.text]
  simp [Chunk.text, this]

theorem ind_ws (c : Cfg) (d : Nat) : WS (ind c d) := by
  intro w hw
  unfold ind emitIndent at hw
  split at hw
  · simp [Chunk.text] at hw
    rcases hw with h | h
    · exact .inr h
    · exact .inl h.2
  · simp at hw

theorem b64_plain (cpl sc : Nat) (hc : cpl = 0) (l : Bytes) :
    ∀ b ∈ B64.encFlat cpl sc l, plainChar b = true := by
  have dg : ∀ n, n < 64 → plainChar (digit n) = true := by
    have : ∀ n : Fin 64, plainChar (digit n.val) = true := by decide +kernel
    exact fun n hn => this ⟨n, hn⟩
  have h61 : plainChar 61 = true := by decide
  fun_induction B64.encFlat cpl sc l with
  | case1 => simp [B64.encFlat]
  | case2 sc a =>
    have := a.toNat_lt
    intro b hb
    simp only [B64.encFlat, List.mem_cons, List.not_mem_nil, or_false] at hb
    rcases hb with rfl | rfl | rfl | rfl
    · exact dg _ (by omega)
    · exact dg _ (by omega)
    · exact h61
    · exact h61
  | case3 sc a b' =>
    have := a.toNat_lt
    have := b'.toNat_lt
    intro b hb
    simp only [B64.encFlat, List.mem_cons, List.not_mem_nil, or_false] at hb
    rcases hb with rfl | rfl | rfl | rfl
    · exact dg _ (by omega)
    · exact dg _ (by omega)
    · exact dg _ (by omega)
    · exact h61
  | case4 sc a b' c' rest ih1 ih2 =>
    have := a.toNat_lt
    have := b'.toNat_lt
    have := c'.toNat_lt
    intro b hb
    simp only [B64.encFlat, List.mem_cons] at hb
    rw [if_neg (by omega)] at hb
    rcases hb with rfl | rfl | rfl | rfl | hb
    · exact dg _ (by omega)
    · exact dg _ (by omega)
    · exact dg _ (by omega)
    · exact dg _ (by omega)
    · exact ih2 b hb

/-- A value-carrying container is on top. -/
def VTop (stk : List Mode) : Prop := ∃ m r, stk = m :: r ∧ (m = .array ∨ m = .object)

/-- Reading the text of a value from an idle tokenizer expecting one: the callbacks made so
far and those still pending are together the events `pes`. -/
def ReadsV (fo : FloatOps) (stk : List Mode) (s : Int) (b : Bytes) (pes : List PEv) : Prop :=
  ∃ t e0 pe0 pe1, Steps stk.length (T s stk) b t e0 ∧ cbs fo e0 = .ok pe0 ∧ EndsV fo stk t pe1 ∧
    pe0 ++ pe1 = pes

theorem reads_string (fo : FloatOps) (stk : List Mode) (s : Int) (hs : s = VA ∨ s = AR) (hv : VTop stk)
    (x content : Bytes) (pe : PEv)
    (hx : Steps stk.length (P ST .string stk []) x (P ST .string stk content) [])
    (hp : callbackEvent fo (.str content) = .ok pe) :
    ReadsV fo stk s ([0x22] ++ x ++ [0x22]) [pe] := by
  obtain ⟨m, r, rfl, hm⟩ := hv
  refine ⟨T OK (m :: r), [.str content], [pe], [], ?_, by simp [cbs, hp], ends_idle fo _, rfl⟩
  have h1 : Steps (m :: r).length (T s (m :: r)) [0x22] (P ST .string (m :: r) []) [] := by
    refine .one (str_open s _ ?_) (Nat.le_refl _)
    rcases hs with rfl | rfl <;> simp
  exact (h1.append' hx).append' (.one (str_close_val m r content hm) (Nat.le_refl _))

theorem reads_pending (fo : FloatOps) (stk : List Mode) (s : Int) (b : Bytes) (ty : JT) (s' : Int) (pe : PEv)
    (hs' : s' ∈ endStates) (hty : ty ≠ .none) (hstr : ty ≠ .string)
    (h1 : Steps stk.length (T s stk) b (P s' ty stk b) [])
    (h : ∀ (s : Int) (stk : List Mode) (ws : Bytes), WS ws → ∃ e, parseBuffer (P s ty stk (b ++ ws)) =
      some (P s ty stk [], [e]) ∧ callbackEvent fo e = .ok pe) :
    ReadsV fo stk s b [pe] :=
  ⟨_, [], [], [pe], h1, rfl, ends_pending fo s' ty stk b pe hs' hty hstr h, rfl⟩

theorem reads_null (fo : FloatOps) (stk : List Mode) (s : Int) (hs : s = VA ∨ s = AR) :
    ReadsV fo stk s [0x6e, 0x75, 0x6c, 0x6c] [.scalar .null] := by
  refine reads_pending fo stk s _ .null OK _ (by simp [endStates]) (by simp) (by simp) ?_
    (fun _ _ _ _ => ⟨.null, rfl, rfl⟩)
  refine .cons' (t1 := P N1 .null stk [0x6e]) (by rcases hs with rfl | rfl <;> rfl) (Nat.le_refl _) ?_
  exact .cons' (t1 := P N2 .null stk [0x6e, 0x75]) rfl (Nat.le_refl _) (.cons' (t1 := P N3 .null stk [0x6e, 0x75, 0x6c]) rfl
    (Nat.le_refl _) (.one rfl (Nat.le_refl _)))

theorem reads_true (fo : FloatOps) (stk : List Mode) (s : Int) (hs : s = VA ∨ s = AR) :
    ReadsV fo stk s [0x74, 0x72, 0x75, 0x65] [.scalar (.bool true)] := by
  refine reads_pending fo stk s _ .tru OK _ (by simp [endStates]) (by simp) (by simp) ?_
    (fun _ _ _ _ => ⟨.tru, rfl, rfl⟩)
  refine .cons' (t1 := P T1 .tru stk [0x74]) (by rcases hs with rfl | rfl <;> rfl) (Nat.le_refl _) ?_
  exact .cons' (t1 := P T2 .tru stk [0x74, 0x72]) rfl (Nat.le_refl _) (.cons' (t1 := P T3 .tru stk [0x74, 0x72, 0x75]) rfl
    (Nat.le_refl _) (.one rfl (Nat.le_refl _)))

theorem reads_false (fo : FloatOps) (stk : List Mode) (s : Int) (hs : s = VA ∨ s = AR) :
    ReadsV fo stk s [0x66, 0x61, 0x6c, 0x73, 0x65] [.scalar (.bool false)] := by
  refine reads_pending fo stk s _ .fals OK _ (by simp [endStates]) (by simp) (by simp) ?_
    (fun _ _ _ _ => ⟨.fals, rfl, rfl⟩)
  refine .cons' (t1 := P F1 .fals stk [0x66]) (by rcases hs with rfl | rfl <;> rfl) (Nat.le_refl _) ?_
  exact .cons' (t1 := P F2 .fals stk [0x66, 0x61]) rfl (Nat.le_refl _) (.cons' (t1 := P F3 .fals stk [0x66, 0x61, 0x6c]) rfl
    (Nat.le_refl _) (.cons' (t1 := P F4 .fals stk [0x66, 0x61, 0x6c, 0x73]) rfl (Nat.le_refl _) (.one rfl (Nat.le_refl _))))

theorem reads_uint (fo : FloatOps) (stk : List Mode) (s : Int) (hs : s = VA ∨ s = AR) (n : Nat) (hn : n < 2 ^ 64) :
    ReadsV fo stk s (natDec n) [.scalar (.uint (UInt64.ofNat n))] := by
  obtain ⟨s', h1, h2⟩ := int_unsigned s hs stk (Nat.le_refl _) _ (intPart_natDec n)
  refine reads_pending fo stk s _ .uint s' _ (by rcases h1 with rfl | rfl <;> simp [endStates]) (by simp) (by simp) h2 ?_
  intro s stk ws hw
  refine ⟨.uint n, ?_, rfl⟩
  have : scanU64 (natDec n ++ ws) = some n := by
    unfold scanU64
    rw [scanDec_pos _ _ n ws hw (by omega) (by omega)]; simp
  simp [parseBuffer, this]

theorem reads_int (fo : FloatOps) (stk : List Mode) (s : Int) (hs : s = VA ∨ s = AR) (n : Nat) (hn : n ≤ 2 ^ 63) :
    ReadsV fo stk s (45 :: natDec n) [.scalar (.int (Int64.ofInt (-(n : Int))))] := by
  obtain ⟨s', h1, h2⟩ := int_signed s hs stk (Nat.le_refl _) _ (intPart_natDec n)
  refine reads_pending fo stk s _ .int s' _ (by rcases h1 with rfl | rfl <;> simp [endStates]) (by simp) (by simp) h2 ?_
  intro s stk ws hw
  refine ⟨.int (-(n : Int)), ?_, rfl⟩
  have : scanI64 (45 :: natDec n ++ ws) = some (-(n : Int)) := by
    unfold scanI64
    exact scanDec_neg _ _ n ws hw (by omega) (by omega)
  have e : (45 :: natDec n ++ ws) = 45 :: (natDec n ++ ws) := rfl
  rw [e] at this
  simp [parseBuffer, this]

theorem reads_float {ff : FloatFmt} {fo : FloatOps} (hl : FloatLaw ff fo) (stk : List Mode) (s : Int)
    (hs : s = VA ∨ s = AR) (t : Bytes) (ht : FloatText t) :
    ReadsV fo stk s t [.scalar (.flt (fo.strtod t))] := by
  obtain ⟨s', h1, h2⟩ := float_steps s hs stk (Nat.le_refl _) t ht
  refine reads_pending fo stk s _ .float s' _ h1 (by simp) (by simp) h2 ?_
  intro s stk ws hw
  exact ⟨.float (t ++ ws), rfl, by simp [callbackEvent, hl.trail t ws ht hw]⟩

/-- Reading the rest of a list, after a value and up to the blanks before `]`. -/
def ReadsRest (fo : FloatOps) (close : UInt8) (stk s : List Mode) (t : Tok) (b : Bytes) (pes : List PEv) (cl : JEv) : Prop :=
  ∃ t' e0 e1 pe0 pe1, Steps stk.length t b t' e0 ∧ cbs fo e0 = .ok pe0 ∧ cbs fo e1 = .ok pe1 ∧ pe0 ++ pe1 = pes ∧
    charStep t' close = .cont (T OK s) (e1 ++ [cl])

theorem open_list (stk : List Mode) (s : Int) (hs : s = VA ∨ s = AR ∨ s = GO) :
    charStep (T s stk) 0x5b = .cont (T AR (.array :: stk)) [.arrBegin] := by
  rcases hs with rfl | rfl | rfl <;> rfl

theorem open_map (stk : List Mode) (s : Int) (hs : s = VA ∨ s = AR ∨ s = GO) :
    charStep (T s stk) 0x7b = .cont (T OB (.key :: stk)) [.objBegin] := by
  rcases hs with rfl | rfl | rfl <;> rfl

theorem reads_container {fo : FloatOps} {stk s' : List Mode} {s : Int} {o c : UInt8} {t : Tok} {b : Bytes}
    {pes : List PEv} {oe ce : JEv} {po pc : PEv} (ho : charStep (T s stk) o = .cont t [oe])
    (hlen : s'.length = stk.length + 1) (ht : t.stack.length = stk.length + 1)
    (hpo : callbackEvent fo oe = .ok po) (hpc : callbackEvent fo ce = .ok pc)
    (h : ReadsRest fo c s' stk t b pes ce) :
    ReadsV fo stk s (o :: b ++ [c]) (po :: (pes ++ [pc])) := by
  obtain ⟨t', e0, e1, pe0, pe1, h1, h2, h3, rfl, h4⟩ := h
  have a : Steps stk.length (T s stk) (o :: b) t' ([oe] ++ e0) :=
    .cons ho (by omega) (h1.mono (by omega))
  refine ⟨T OK stk, ([oe] ++ e0) ++ (e1 ++ [ce]), [po] ++ pe0 ++ (pe1 ++ [pc]), [],
    a.append (.one h4 (Nat.le_refl _)), ?_, ends_idle fo stk, by simp⟩
  exact cbs_append (cbs_append (by simp [cbs, hpo]) h2) (cbs_append h3 (by simp [cbs, hpc]))

mutual
theorem reads_val {ff : FloatFmt} {fo : FloatOps} (hl : FloatLaw ff fo) (c : Cfg) :
    ∀ (v : Val) (d : Nat) (b : Bytes), body ff c d v = .ok b → Plain v →
    ∀ (stk : List Mode) (s : Int), VTop stk → (s = VA ∨ s = AR) →
    ReadsV fo stk s b (treeOf (readBack ff fo c.precision v)).events
  | .null, d, b, hb, _, stk, s, _, hs => by
    simp [body, scalarText] at hb; subst hb
    exact reads_null fo stk s hs
  | .bool true, d, b, hb, _, stk, s, _, hs => by
    simp [body, scalarText] at hb; subst hb
    exact reads_true fo stk s hs
  | .bool false, d, b, hb, _, stk, s, _, hs => by
    simp [body, scalarText] at hb; subst hb
    exact reads_false fo stk s hs
  | .uint u, d, b, hb, _, stk, s, _, hs => by
    simp [body, scalarText] at hb; subst hb
    have := reads_uint fo stk s hs u.toNat u.toNat_lt
    rw [UInt64.ofNat_toNat] at this
    exact this
  | .int i, d, b, hb, _, stk, s, _, hs => by
    simp [body, scalarText] at hb; subst hb
    have h1 := i.toInt_lt
    have h2 := i.le_toInt
    simp only [readBack, intDec]
    by_cases h : 0 ≤ i.toInt
    · rw [if_pos h, if_neg (by omega)]
      have := reads_uint fo stk s hs i.toInt.toNat (by omega)
      rw [show i.toInt.natAbs = i.toInt.toNat by omega]
      exact this
    · rw [if_neg h, if_pos (by omega)]
      have := reads_int fo stk s hs i.toInt.natAbs (by omega)
      rw [show -(i.toInt.natAbs : Int) = i.toInt by omega, Int64.ofInt_toInt] at this
      exact this
  | .flt x, d, b, hb, _, stk, s, _, hs => by
    simp only [body, scalarText] at hb
    simp only [readBack]
    by_cases hx : nonFinite x = true
    · rw [if_pos hx] at hb ⊢
      split at hb
      · cases hb
      · cases hb; exact reads_null fo stk s hs
    · rw [if_neg hx] at hb ⊢
      cases hb
      exact reads_float hl stk s hs _ (hl.shape _ _ (by simpa using hx))
  | .str x, d, b, hb, hp, stk, s, hv, hs => by
    simp only [body, scalarText, Out.ok.injEq] at hb; subst hb
    simp only [Plain] at hp
    rw [emitString_text hp]
    refine reads_string fo stk s hs hv _ x _ ?_ ?_
    · simpa using str_chars stk [] x (Nat.le_refl _)
    · simp only [callbackEvent, readBack]
      rw [if_neg]
      intro h
      apply hp.1
      have : (0 : UInt8) ∈ x.take 5 := by rw [h]; simp [blobTag]
      exact List.mem_of_mem_take this
  | .blob segs, d, b, hb, hp, stk, s, hv, hs => by
    simp only [body, scalarText] at hb
    simp only [Plain] at hp
    split at hb
    · cases hb
    · simp only [B64.encode_flat segs 0 hp, Out.bind_ok, Nat.lt_irrefl, if_false] at hb
      split at hb
      · cases hb
        have hd := B64.decode_encode segs 0 hp
        simp only [B64.encode_flat segs 0 hp, Out.bind_ok, Nat.lt_irrefl, if_false] at hd
        have e : ([0x22, 0x5c, 0x75, 0x30, 0x30, 0x30, 0x30, 0x42, 0x4c, 0x4f, 0x42] : Bytes) ++
            B64.encFlat 0 0 segs.flatten ++ [0x22] =
            [0x22] ++ (([0x5c, 0x75, 0x30, 0x30, 0x30, 0x30] : Bytes) ++ ([0x42, 0x4c, 0x4f, 0x42] ++
              B64.encFlat 0 0 segs.flatten)) ++ [0x22] := by simp
        rw [e]
        refine reads_string fo stk s hs hv _ (blobTag ++ B64.encFlat 0 0 segs.flatten) _ ?_ ?_
        · have h0 : Steps stk.length (P ST .string stk []) [0x5c, 0x75, 0x30, 0x30, 0x30, 0x30]
              (P ST .string stk [0]) [] := str_char stk [] 0 (Nat.le_refl _)
          refine h0.append' ?_
          refine str_plains stk [0] _ (Nat.le_refl _) ?_
          intro x hx
          simp only [List.mem_append, List.mem_cons, List.not_mem_nil, or_false] at hx
          rcases hx with (rfl | rfl | rfl | rfl) | hx
          · decide
          · decide
          · decide
          · decide
          · exact b64_plain 0 0 rfl _ x hx
        · simp only [callbackEvent, readBack]
          rw [if_pos (by simp [blobTag])]
          rw [show (blobTag ++ B64.encFlat 0 0 segs.flatten).drop 5 = B64.encFlat 0 0 segs.flatten by simp [blobTag], hd]
          rfl
      · cases hb
  | .list xs, d, b, hb, hp, stk, s, hv, hs => by
    simp only [Plain] at hp
    simp only [body] at hb
    cases hx : bodyList ff c d true xs with
    | throw e => rw [hx] at hb; cases hb
    | ub => rw [hx] at hb; cases hb
    | ok bx =>
      rw [hx] at hb
      simp only [Out.map_ok, Out.ok.injEq] at hb; subst hb
      have h := reads_list hl c xs d bx hx hp stk
      have e : (0x5b :: bx ++ ind c d ++ [0x5d] : Bytes) = 0x5b :: (bx ++ ind c d) ++ [0x5d] := by simp
      rw [e]
      exact reads_container (open_list stk s (by rcases hs with h | h <;> simp [h])) rfl rfl rfl rfl h
  | .map m, d, b, hb, hp, stk, s, hv, hs => by
    simp only [Plain] at hp
    simp only [body] at hb
    cases hx : bodyMap ff c d true m with
    | throw e => rw [hx] at hb; cases hb
    | ub => rw [hx] at hb; cases hb
    | ok bx =>
      rw [hx] at hb
      simp only [Out.map_ok, Out.ok.injEq] at hb; subst hb
      have h := reads_map hl c m d bx hx hp stk
      have e : (0x7b :: bx ++ ind c d ++ [0x7d] : Bytes) = 0x7b :: (bx ++ ind c d) ++ [0x7d] := by simp
      rw [e]
      exact reads_container (s' := .object :: stk) (open_map stk s (by rcases hs with h | h <;> simp [h])) rfl rfl rfl rfl h
theorem reads_list {ff : FloatFmt} {fo : FloatOps} (hl : FloatLaw ff fo) (c : Cfg) :
    ∀ (xs : List Val) (d : Nat) (b : Bytes), bodyList ff c d true xs = .ok b → PlainList xs →
    ∀ (stk : List Mode), ReadsRest fo 0x5d (.array :: stk) stk (T AR (.array :: stk)) (b ++ ind c d)
      (eventsList (treeOfList (readBackList ff fo c.precision xs))) .arrEnd
  | [], d, b, hb, _, stk => by
    simp [bodyList] at hb; subst hb
    exact ⟨T AR (.array :: stk), [], [], [], [], idle_ws AR _ (by simp) (Nat.le_refl _) (ind_ws c d),
      rfl, rfl, rfl, rfl⟩
  | x :: xs, d, b, hb, hp, stk => by
    simp only [PlainList] at hp
    simp only [bodyList] at hb
    cases hx : body ff c (d + 1) x with
    | throw e => rw [hx] at hb; cases hb
    | ub => rw [hx] at hb; cases hb
    | ok bx =>
      rw [hx] at hb
      cases hr : bodyList ff c d false xs with
      | throw e => rw [hr] at hb; cases hb
      | ub => rw [hr] at hb; cases hb
      | ok br =>
        rw [hr] at hb
        simp only [Out.bind_ok, Out.map_ok, Out.ok.injEq, if_true, List.nil_append] at hb; subst hb
        obtain ⟨t, e0, pe0, pe1, h1, h2, h3, h4⟩ :=
          reads_val hl c x (d + 1) bx hx hp.1 (.array :: stk) AR ⟨_, _, rfl, .inl rfl⟩ (.inr rfl)
        obtain ⟨t', f0, f1, q0, q1, g1, g2, g3, g4, g5⟩ := reads_list_rest hl c xs d br hr hp.2 stk t pe1 h3
        have a := (idle_ws (n := (Mode.array :: stk).length) AR (.array :: stk) (by simp) (Nat.le_refl _) (ind_ws c (d + 1))).append'
          (h1.append g1)
        refine ⟨t', e0 ++ f0, f1, pe0 ++ q0, q1, by simpa using a, cbs_append h2 g2, g3, ?_, g5⟩
        rw [List.append_assoc, g4, readBackList, treeOfList, eventsList, ← h4, List.append_assoc]
theorem reads_list_rest {ff : FloatFmt} {fo : FloatOps} (hl : FloatLaw ff fo) (c : Cfg) :
    ∀ (xs : List Val) (d : Nat) (b : Bytes), bodyList ff c d false xs = .ok b → PlainList xs →
    ∀ (stk : List Mode) (t : Tok) (pe : List PEv), EndsV fo (.array :: stk) t pe →
    ReadsRest fo 0x5d (.array :: stk) stk t (b ++ ind c d)
      (pe ++ eventsList (treeOfList (readBackList ff fo c.precision xs))) .arrEnd
  | [], d, b, hb, _, stk, t, pe, ht => by
    simp [bodyList] at hb; subst hb
    obtain ⟨t', evs, h1, h2, h3, _⟩ := ht.arr stk rfl (ind c d) (ind_ws c d)
    exact ⟨t', [], evs, [], pe, h2, rfl, h1, by simp [readBackList, treeOfList, eventsList], h3⟩
  | x :: xs, d, b, hb, hp, stk, t, pe, ht => by
    simp only [PlainList] at hp
    simp only [bodyList] at hb
    cases hx : body ff c (d + 1) x with
    | throw e => rw [hx] at hb; cases hb
    | ub => rw [hx] at hb; cases hb
    | ok bx =>
      rw [hx] at hb
      cases hr : bodyList ff c d false xs with
      | throw e => rw [hr] at hb; cases hb
      | ub => rw [hr] at hb; cases hb
      | ok br =>
        rw [hr] at hb
        simp only [Out.bind_ok, Out.map_ok, Out.ok.injEq, Bool.false_eq_true, if_false] at hb; subst hb
        obtain ⟨tc, evs, k1, k2, _, k4⟩ := ht.arr stk rfl [] (by simp [WS])
        obtain ⟨t1, e0, pe0, pe1, h1, h2, h3, h4⟩ :=
          reads_val hl c x (d + 1) bx hx hp.1 (.array :: stk) VA ⟨_, _, rfl, .inl rfl⟩ (.inl rfl)
        obtain ⟨t', f0, f1, q0, q1, g1, g2, g3, g4, g5⟩ := reads_list_rest hl c xs d br hr hp.2 stk t1 pe1 h3
        have a := (idle_ws (n := (Mode.array :: stk).length) VA (.array :: stk) (by simp) (Nat.le_refl _) (ind_ws c (d + 1))).append'
          (h1.append g1)
        have a' := k2.append' (Steps.cons k4 (Nat.le_refl _) a)
        refine ⟨t', evs ++ (e0 ++ f0), f1, pe ++ (pe0 ++ q0), q1, by simpa using a',
          cbs_append k1 (cbs_append h2 g2), g3, ?_, g5⟩
        rw [readBackList, treeOfList, eventsList, ← h4, List.append_assoc, List.append_assoc, List.append_assoc, g4]
theorem reads_map {ff : FloatFmt} {fo : FloatOps} (hl : FloatLaw ff fo) (c : Cfg) :
    ∀ (m : List (Bytes × Val)) (d : Nat) (b : Bytes), bodyMap ff c d true m = .ok b → PlainMap m →
    ∀ (stk : List Mode), ReadsRest fo 0x7d (.object :: stk) stk (T OB (.key :: stk)) (b ++ ind c d)
      (eventsMap (treeOfMap (readBackMap ff fo c.precision m))) .objEnd
  | [], d, b, hb, _, stk => by
    simp [bodyMap] at hb; subst hb
    exact ⟨T OB (.key :: stk), [], [], [], [], idle_ws (n := stk.length + 1) OB (.key :: stk) (by simp) (Nat.le_refl _) (ind_ws c d),
      rfl, rfl, rfl, rfl⟩
  | (k, x) :: m, d, b, hb, hp, stk => by
    simp only [PlainMap] at hp
    simp only [bodyMap] at hb
    cases hx : body ff c (d + 1) x with
    | throw e => rw [hx] at hb; cases hb
    | ub => rw [hx] at hb; cases hb
    | ok bx =>
      rw [hx] at hb
      cases hr : bodyMap ff c d false m with
      | throw e => rw [hr] at hb; cases hb
      | ub => rw [hr] at hb; cases hb
      | ok br =>
        rw [hr] at hb
        simp only [Out.bind_ok, Out.map_ok, Out.ok.injEq, if_true, List.nil_append] at hb; subst hb
        have key : Steps (stk.length + 1) (T OB (.key :: stk)) (text (emitString k)) (T CO (.key :: stk)) [.key k] := by
          rw [emitString_text hp.1]
          have h1 := Steps.one (n := stk.length + 1) (str_open OB (.key :: stk) (by simp)) (Nat.le_refl _)
          have h2 := str_chars (n := stk.length + 1) (.key :: stk) [] k (Nat.le_refl _)
          exact (h1.append' h2).append' (.one (str_close_key stk k) (Nat.le_refl _))
        have colon : Steps (stk.length + 1) (T CO (.key :: stk)) [0x3a, 0x20] (T VA (.object :: stk)) [] :=
          .cons' (t1 := T VA (.object :: stk)) rfl (Nat.le_refl _) (.one rfl (Nat.le_refl _))
        obtain ⟨t, e0, pe0, pe1, h1, h2, h3, h4⟩ :=
          reads_val hl c x (d + 1) bx hx hp.2.1 (.object :: stk) VA ⟨_, _, rfl, .inr rfl⟩ (.inl rfl)
        obtain ⟨t', f0, f1, q0, q1, g1, g2, g3, g4, g5⟩ := reads_map_rest hl c m d br hr hp.2.2 stk t pe1 h3
        have a := (idle_ws (n := stk.length + 1) OB (.key :: stk) (by simp) (Nat.le_refl _) (ind_ws c (d + 1))).append'
          (key.append (colon.append' (h1.append g1)))
        refine ⟨t', [.key k] ++ (e0 ++ f0), f1, [.scalar (.str k)] ++ (pe0 ++ q0), q1, by simpa using a,
          cbs_append rfl (cbs_append h2 g2), g3, ?_, g5⟩
        rw [List.append_assoc, List.append_assoc, g4, readBackMap, treeOfMap, eventsMap, ← h4, List.append_assoc]
        rfl
theorem reads_map_rest {ff : FloatFmt} {fo : FloatOps} (hl : FloatLaw ff fo) (c : Cfg) :
    ∀ (m : List (Bytes × Val)) (d : Nat) (b : Bytes), bodyMap ff c d false m = .ok b → PlainMap m →
    ∀ (stk : List Mode) (t : Tok) (pe : List PEv), EndsV fo (.object :: stk) t pe →
    ReadsRest fo 0x7d (.object :: stk) stk t (b ++ ind c d)
      (pe ++ eventsMap (treeOfMap (readBackMap ff fo c.precision m))) .objEnd
  | [], d, b, hb, _, stk, t, pe, ht => by
    simp [bodyMap] at hb; subst hb
    obtain ⟨t', evs, h1, h2, h3, _⟩ := ht.obj stk rfl (ind c d) (ind_ws c d)
    exact ⟨t', [], evs, [], pe, h2, rfl, h1, by simp [readBackMap, treeOfMap, eventsMap], h3⟩
  | (k, x) :: m, d, b, hb, hp, stk, t, pe, ht => by
    simp only [PlainMap] at hp
    simp only [bodyMap] at hb
    cases hx : body ff c (d + 1) x with
    | throw e => rw [hx] at hb; cases hb
    | ub => rw [hx] at hb; cases hb
    | ok bx =>
      rw [hx] at hb
      cases hr : bodyMap ff c d false m with
      | throw e => rw [hr] at hb; cases hb
      | ub => rw [hr] at hb; cases hb
      | ok br =>
        rw [hr] at hb
        simp only [Out.bind_ok, Out.map_ok, Out.ok.injEq, Bool.false_eq_true, if_false] at hb; subst hb
        obtain ⟨tc, evs, k1, k2, _, k4⟩ := ht.obj stk rfl [] (by simp [WS])
        have key : Steps (stk.length + 1) (T KE (.key :: stk)) (text (emitString k)) (T CO (.key :: stk)) [.key k] := by
          rw [emitString_text hp.1]
          have h1 := Steps.one (n := stk.length + 1) (str_open KE (.key :: stk) (by simp)) (Nat.le_refl _)
          have h2 := str_chars (n := stk.length + 1) (.key :: stk) [] k (Nat.le_refl _)
          exact (h1.append' h2).append' (.one (str_close_key stk k) (Nat.le_refl _))
        have colon : Steps (stk.length + 1) (T CO (.key :: stk)) [0x3a, 0x20] (T VA (.object :: stk)) [] :=
          .cons' (t1 := T VA (.object :: stk)) rfl (Nat.le_refl _) (.one rfl (Nat.le_refl _))
        obtain ⟨t1, e0, pe0, pe1, h1, h2, h3, h4⟩ :=
          reads_val hl c x (d + 1) bx hx hp.2.1 (.object :: stk) VA ⟨_, _, rfl, .inr rfl⟩ (.inl rfl)
        obtain ⟨t', f0, f1, q0, q1, g1, g2, g3, g4, g5⟩ := reads_map_rest hl c m d br hr hp.2.2 stk t1 pe1 h3
        have a := (idle_ws (n := stk.length + 1) KE (.key :: stk) (by simp) (Nat.le_refl _) (ind_ws c (d + 1))).append'
          (key.append (colon.append' (h1.append g1)))
        have a' := k2.append' (Steps.cons k4 (Nat.le_refl _) a)
        refine ⟨t', evs ++ ([.key k] ++ (e0 ++ f0)), f1, pe ++ ([.scalar (.str k)] ++ (pe0 ++ q0)), q1,
          by simpa using a', cbs_append k1 (cbs_append rfl (cbs_append h2 g2)), g3, ?_, g5⟩
        rw [readBackMap, treeOfMap, eventsMap, ← h4]
        simp only [List.append_assoc, List.cons_append, List.nil_append, g4]
end

end Verif.JsonTok
