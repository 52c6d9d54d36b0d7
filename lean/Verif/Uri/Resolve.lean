import Verif.Uri.DotsRfc
/-!
# C46: resolving references as in RFC 3986
-/

namespace Verif.Uri
open Verif

/-! ## What is asked of references -/

/-- `[user[:password]@]host[:port]`. -/
inductive AuthorityOk : Bytes → (user : Bool) → Prop
  | bare {host port : Bytes} : (∀ c ∈ host, c ≠ 58 ∧ c ≠ 64 ∧ c ≠ 47 ∧ c ≠ 63 ∧ c ≠ 35) →
      (port = [] ∨ ∃ d, port = 58 :: d ∧ ∀ c ∈ d, isDigit c = true) → AuthorityOk (host ++ port) false
  | user {u host port : Bytes} : (∀ c ∈ u, c ≠ 58 ∧ c ≠ 64) →
      (∀ c ∈ host, c ≠ 58 ∧ c ≠ 64 ∧ c ≠ 47 ∧ c ≠ 63 ∧ c ≠ 35) →
      (port = [] ∨ ∃ d, port = 58 :: d ∧ ∀ c ∈ d, isDigit c = true) → AuthorityOk (u ++ 64 :: (host ++ port)) true
  | password {u p host port : Bytes} : (∀ c ∈ u, c ≠ 58 ∧ c ≠ 64) → (∀ c ∈ p, c ≠ 58 ∧ c ≠ 64) →
      (∀ c ∈ host, c ≠ 58 ∧ c ≠ 64 ∧ c ≠ 47 ∧ c ≠ 63 ∧ c ≠ 35) →
      (port = [] ∨ ∃ d, port = 58 :: d ∧ ∀ c ∈ d, isDigit c = true) →
      AuthorityOk (u ++ 58 :: (p ++ 64 :: (host ++ port))) true

/-- References the grammar of RFC 3986 allows, further without backslash in the scheme and without
"@" after an authority that has none. -/
structure Usable (r : Ref) : Prop where
  visible : ∀ c ∈ recompose r, 33 ≤ c
  scheme : ∀ s, r.scheme = some s → s ≠ [] ∧ ∀ c ∈ s, c ≠ 58 ∧ c ≠ 92 ∧ c ≠ 47 ∧ c ≠ 63 ∧ c ≠ 35
  authority : ∀ a, r.authority = some a → ∃ u, AuthorityOk a u ∧
    (u = false → (64 : UInt8) ∉ r.path ∧ (∀ q, r.query = some q → (64 : UInt8) ∉ q) ∧ ∀ f, r.fragment = some f → (64 : UInt8) ∉ f)
  path : ∀ c ∈ r.path, c ≠ 63 ∧ c ≠ 35
  rooted : r.authority.isSome → r.path = [] ∨ r.path.head? = some 47
  single : r.authority = none → ¬ [47, 47] <+: r.path
  colon : r.scheme = none → r.authority = none → (58 : UInt8) ∉ r.path.takeWhile (· ≠ 47)
  query : ∀ q, r.query = some q → (35 : UInt8) ∉ q

/-! ## Parsing -/

/-- The components as the code stores them. -/
def protocolOf (r : Ref) : Bytes := match r.scheme with | some s => s ++ [58] | none => []
def authorityOf (r : Ref) : Bytes := match r.authority with | some a => 47 :: 47 :: a | none => []
def searchOf (r : Ref) : Bytes := match r.query with | some q => 63 :: q | none => []
def hashOf (r : Ref) : Bytes := match r.fragment with | some f => 35 :: f | none => []

theorem recompose_eq (r : Ref) : recompose r = protocolOf r ++ authorityOf r ++ r.path ++ searchOf r ++ hashOf r := rfl

theorem span_eq {p : UInt8 → Bool} {a b : Bytes} (ha : ∀ c ∈ a, p c = true) (hb : b = [] ∨ ∃ c r, b = c :: r ∧ p c = false) :
    (a ++ b).takeWhile p = a ∧ (a ++ b).dropWhile p = b := by
  induction a with
  | nil => rcases hb with rfl | ⟨c, r, rfl, h⟩ <;> simp [List.takeWhile, List.dropWhile, *]
  | cons x a ih =>
    have hx := ha x (by simp)
    obtain ⟨h1, h2⟩ := ih (fun c h => ha c (by simp [h]))
    simp [hx, h1, h2]

/-- What follows the path begins with "?" or "#". -/
theorem tail_head (r : Ref) : searchOf r ++ hashOf r = [] ∨ ∃ c t, searchOf r ++ hashOf r = c :: t ∧ (c = 63 ∨ c = 35) := by
  unfold searchOf hashOf
  cases r.query <;> cases r.fragment <;> simp

theorem takeProtocol_eq {r : Ref} (h : Usable r) : takeProtocol (recompose r) = (protocolOf r, authorityOf r ++ r.path ++ searchOf r ++ hashOf r) := by
  rw [recompose_eq]
  cases hs : r.scheme with
  | some s =>
    obtain ⟨h1, h2⟩ := h.scheme s hs
    have hp : protocolOf r = s ++ [58] := by simp [protocolOf, hs]
    have hsp := span_eq (p := fun c => decide (c ≠ 58 ∧ c ≠ 92 ∧ c ≠ 47 ∧ c ≠ 63 ∧ c ≠ 35)) (a := s)
      (b := 58 :: (authorityOf r ++ r.path ++ searchOf r ++ hashOf r)) (by intro c hc; simpa using h2 c hc)
      (.inr ⟨_, _, rfl, by simp⟩)
    unfold takeProtocol
    rw [hp, show s ++ [58] ++ authorityOf r ++ r.path ++ searchOf r ++ hashOf r =
      s ++ 58 :: (authorityOf r ++ r.path ++ searchOf r ++ hashOf r) from by simp]
    simp only [hsp.1, hsp.2, h1, if_false]
  | none =>
    have hp : protocolOf r = [] := by simp [protocolOf, hs]
    rw [hp, List.nil_append]
    have hno : ∀ t, (authorityOf r ++ r.path ++ searchOf r ++ hashOf r).dropWhile
        (fun c => decide (c ≠ 58 ∧ c ≠ 92 ∧ c ≠ 47 ∧ c ≠ 63 ∧ c ≠ 35)) ≠ 58 :: t := by
      intro t
      cases ha : r.authority with
      | some a => simp [authorityOf, ha]
      | none =>
        have hc := h.colon hs ha
        simp only [authorityOf, ha, List.nil_append, List.append_assoc]
        revert hc
        generalize r.path = p
        induction p with
        | nil =>
          intro _
          rcases tail_head r with h | ⟨c, t', h, rfl | rfl⟩ <;> rw [List.nil_append, h] <;> simp
        | cons c p ih =>
          intro hc
          by_cases h47 : c = 47
          · subst h47; simp
          · simp [List.takeWhile_cons, h47] at hc
            have h58 : c ≠ 58 := fun e => hc.1 e.symm
            simp only [List.cons_append, List.dropWhile_cons]
            split
            · exact ih (by simpa using hc.2)
            · simp [h58]
    unfold takeProtocol
    split
    · rename_i t heq
      exact absurd heq (hno t)
    · rfl

theorem takeUser_none {s : Bytes} (h : (64 : UInt8) ∉ s) : takeUser s = ([], s) := by
  unfold takeUser
  have hd : ∀ t : Bytes, (64 : UInt8) ∉ t → (64 : UInt8) ∉ t.dropWhile fun c => c ≠ 58 ∧ c ≠ 64 :=
    fun t ht hm => ht ((List.dropWhile_sublist _).subset hm)
  have h1 := hd s h
  split
  · rename_i r heq; rw [heq] at h1; simp at h1
  · rename_i r heq
    rw [heq] at h1
    have h2 := hd r (by simpa using h1)
    simp only
    split
    · rename_i r' heq'; rw [heq'] at h2; simp at h2
    · rfl
  · rfl

theorem takeHost_eq {host port rest : Bytes} (hh : ∀ c ∈ host, c ≠ 58 ∧ c ≠ 64 ∧ c ≠ 47 ∧ c ≠ 63 ∧ c ≠ 35)
    (hp : port = [] ∨ ∃ d, port = 58 :: d ∧ ∀ c ∈ d, isDigit c = true)
    (hr : rest = [] ∨ ∃ c t, rest = c :: t ∧ (c = 47 ∨ c = 63 ∨ c = 35)) :
    takeHost (host ++ (port ++ rest)) = (host ++ port, rest) := by
  have hh' : ∀ c ∈ host, decide (c ≠ 58 ∧ c ≠ 47 ∧ c ≠ 63 ∧ c ≠ 35) = true := by
    intro c hc; have := hh c hc; simp [this]
  unfold takeHost
  rcases hp with rfl | ⟨d, rfl, hd⟩
  · have hs := span_eq hh' (b := [] ++ rest) (by
      rcases hr with rfl | ⟨c, t, rfl, h⟩
      · exact .inl rfl
      · refine .inr ⟨c, t, rfl, ?_⟩
        rcases h with rfl | rfl | rfl <;> simp)
    simp only [hs.1, hs.2]
    rcases hr with rfl | ⟨c, t, rfl, rfl | rfl | rfl⟩ <;> simp
  · have hs := span_eq hh' (b := 58 :: d ++ rest) (.inr ⟨58, d ++ rest, rfl, by simp⟩)
    have hs2 := span_eq (p := isDigit) hd (b := rest) (by
      rcases hr with rfl | ⟨c, t, rfl, h⟩
      · exact .inl rfl
      · refine .inr ⟨c, t, rfl, ?_⟩
        rcases h with rfl | rfl | rfl <;> decide)
    rw [hs.1, hs.2]
    simp only [List.cons_append, hs2.1, hs2.2]
    simp

theorem takeAuthority_eq {r : Ref} (h : Usable r) :
    takeAuthority (authorityOf r ++ r.path ++ searchOf r ++ hashOf r) = (authorityOf r, r.path ++ searchOf r ++ hashOf r) := by
  have ht := tail_head r
  cases ha : r.authority with
  | none =>
    have hs := h.single ha
    simp only [authorityOf, ha, List.nil_append]
    unfold takeAuthority
    split
    · rename_i t heq
      exfalso
      rw [List.append_assoc] at heq
      match hp : r.path with
      | [] =>
        rw [hp, List.nil_append] at heq
        rcases ht with h | ⟨c, t', h, rfl | rfl⟩ <;> rw [h] at heq <;> simp at heq
      | [x] =>
        rw [hp] at heq
        simp only [List.cons_append, List.nil_append, List.cons.injEq] at heq
        rcases ht with h | ⟨c, t', h, rfl | rfl⟩ <;> rw [h] at heq <;> simp at heq
      | x :: y :: p =>
        rw [hp] at heq hs
        simp only [List.cons_append, List.cons.injEq] at heq
        apply hs
        rw [heq.1, heq.2.1]
        exact ⟨p, rfl⟩
    · rfl
  | some a =>
    obtain ⟨u, hu, hat⟩ := h.authority a ha
    have hrest : r.path ++ searchOf r ++ hashOf r = [] ∨
        ∃ c t, r.path ++ searchOf r ++ hashOf r = c :: t ∧ (c = 47 ∨ c = 63 ∨ c = 35) := by
      rcases h.rooted (by simp [ha]) with hp | hp
      · rw [hp, List.nil_append]
        rcases ht with h | ⟨c, t', h, h'⟩
        · exact .inl h
        · exact .inr ⟨c, t', h, .inr h'⟩
      · cases hp' : r.path with
        | nil => rw [hp'] at hp; simp at hp
        | cons x p =>
          rw [hp'] at hp
          simp at hp
          exact .inr ⟨x, p ++ searchOf r ++ hashOf r, by simp, .inl hp⟩
    have eA : authorityOf r = 47 :: 47 :: a := by simp [authorityOf, ha]
    rw [eA]
    simp only [List.cons_append, takeAuthority]
    generalize hR : r.path ++ searchOf r ++ hashOf r = rest at hrest ⊢
    rw [show a ++ r.path ++ searchOf r ++ hashOf r = a ++ rest from by rw [← hR]; simp]
    cases hu with
    | @bare host port h1 h2 =>
      have h64 : (64 : UInt8) ∉ rest := by
        obtain ⟨q1, q2, q3⟩ := hat rfl
        rw [← hR]
        simp only [List.mem_append, not_or]
        refine ⟨⟨q1, ?_⟩, ?_⟩
        · unfold searchOf; cases hq : r.query with
          | none => simp
          | some q => simp; exact q2 q hq
        · unfold hashOf; cases hq : r.fragment with
          | none => simp
          | some q => simp; exact q3 q hq
      have h64' : (64 : UInt8) ∉ host ++ port ++ rest := by
        simp only [List.mem_append, not_or]
        refine ⟨⟨fun hm => (h1 _ hm).2.1 rfl, ?_⟩, h64⟩
        rcases h2 with rfl | ⟨d, rfl, hd⟩
        · simp
        · simp
          intro hm
          have := hd _ hm
          revert this; decide
      rw [takeUser_none h64']
      simp only [List.append_assoc]
      rw [takeHost_eq h1 h2 hrest]
      simp
    | @user u host port h0 h1 h2 =>
      have hs := span_eq (p := fun c => decide (c ≠ 58 ∧ c ≠ 64)) (a := u) (b := 64 :: (host ++ port) ++ rest)
        (by intro c hc; simpa using h0 c hc) (.inr ⟨64, _, rfl, by simp⟩)
      have htu : takeUser (u ++ 64 :: (host ++ port) ++ rest) = (u ++ [64], host ++ (port ++ rest)) := by
        unfold takeUser
        rw [List.append_assoc, hs.1, hs.2]
        simp
      rw [htu]
      simp only
      rw [takeHost_eq h1 h2 hrest]
      simp
    | @password u p host port h0 h0' h1 h2 =>
      have hs := span_eq (p := fun c => decide (c ≠ 58 ∧ c ≠ 64)) (a := u) (b := 58 :: (p ++ 64 :: (host ++ port)) ++ rest)
        (by intro c hc; simpa using h0 c hc) (.inr ⟨58, _, rfl, by simp⟩)
      have hs2 := span_eq (p := fun c => decide (c ≠ 58 ∧ c ≠ 64)) (a := p) (b := 64 :: (host ++ port) ++ rest)
        (by intro c hc; simpa using h0' c hc) (.inr ⟨64, _, rfl, by simp⟩)
      have htu : takeUser (u ++ 58 :: (p ++ 64 :: (host ++ port)) ++ rest) = (u ++ [58] ++ p ++ [64], host ++ (port ++ rest)) := by
        unfold takeUser
        rw [List.append_assoc, hs.1, hs.2]
        simp only [List.cons_append, List.append_assoc]
        simp only [List.cons_append, List.append_assoc] at hs2
        rw [hs2.1, hs2.2]
        rfl
      rw [htu]
      simp only
      rw [takeHost_eq h1 h2 hrest]
      simp

/-- The code takes a reference apart into its components. -/
theorem parse_recompose {r : Ref} (h : Usable r) : parseURI (recompose r) =
    some ⟨recompose r, protocolOf r, authorityOf r, r.path, searchOf r, hashOf r⟩ := by
  have hv := h.visible
  have hsp : ∀ c ∈ recompose r, isSpace c = false := by
    intro c hc
    have := hv c hc
    simp only [UInt8.le_iff_toNat_le] at this
    simp only [isSpace, Bool.or_eq_false_iff, Bool.and_eq_false_iff, beq_eq_false_iff_ne, decide_eq_false_iff_not,
      UInt8.le_iff_toNat_le]
    refine ⟨by rintro rfl; simp at this, ?_⟩
    simp at this ⊢
    omega
  have h0 : (recompose r).takeWhile (· ≠ 0) = recompose r := by
    have := span_eq (p := fun c => decide (c ≠ 0)) (a := recompose r) (b := []) (by
      intro c hc
      have := hv c hc
      simp
      rintro rfl
      revert this; decide) (.inl rfl)
    simpa using this.1
  have h1 : (recompose r).dropWhile isSpace = recompose r := by
    cases hr : recompose r with
    | nil => rfl
    | cons c t =>
      have := hsp c (by simp [hr])
      simp [List.dropWhile, this]
  have hpath := span_eq (p := fun c => decide (c ≠ 63 ∧ c ≠ 35)) (a := r.path) (b := searchOf r ++ hashOf r)
    (by intro c hc; simpa using h.path c hc) (by
      rcases tail_head r with h | ⟨c, t, h, h'⟩
      · exact .inl h
      · refine .inr ⟨c, t, h, ?_⟩
        rcases h' with rfl | rfl <;> simp)
  have hsearch : takeSearch (searchOf r ++ hashOf r) = (searchOf r, hashOf r) := by
    cases hq : r.query with
    | none =>
      simp only [searchOf, hq, List.nil_append]
      unfold takeSearch hashOf
      cases r.fragment <;> simp
    | some q =>
      have := span_eq (p := fun c => decide (c ≠ 35)) (a := q) (b := hashOf r) (by
        intro c hc
        simp
        rintro rfl
        exact h.query q hq hc) (by
          unfold hashOf
          cases r.fragment
          · exact .inl rfl
          · exact .inr ⟨35, _, rfl, by simp⟩)
      simp only [searchOf, hq, List.cons_append, takeSearch, this.1, this.2]
  have hhash : takeHash (hashOf r) = (hashOf r, []) := by
    cases hf : r.fragment with
    | none => simp [hashOf, hf, takeHash]
    | some f =>
      have := span_eq (p := fun c => !isSpace c) (a := f) (b := []) (by
        intro c hc
        rw [hsp c (by rw [recompose_eq]; simp [hashOf, hf, hc])]
        rfl) (.inl rfl)
      simp only [List.append_nil] at this
      simp only [hashOf, hf, takeHash, this.1, this.2]
  unfold parseURI
  simp only [h0, h1, takeProtocol_eq h, takeAuthority_eq h]
  rw [List.append_assoc, hpath.1, hpath.2]
  simp only [hsearch, hhash]
  rfl

/-! ## Resolving -/

/-- Paths on which removing dot segments does what RFC 3986 says: absolute ones that stay inside the
root, and those without dot segments. -/
inductive Cleanable : Bytes → Prop
  | absolute {p : Bytes} {l : List Bytes} : Segments (47 :: p) ([] :: l) → StaysInside l → l.length < 2 ^ 32 → Cleanable (47 :: p)
  | dotless {p : Bytes} {l : List Bytes} : Segments p l → (∀ s ∈ l, s ≠ [46] ∧ s ≠ [46, 46]) → Cleanable p

theorem removeDots_dotless {p : Bytes} {l : List Bytes} (h : Segments p l) (hd : ∀ s ∈ l, s ≠ [46] ∧ s ≠ [46, 46]) : removeDots p = p := by
  have hs := segments_iff.mp h
  have hns := segs_noslash p
  have hne := segs_ne p
  have hj := join_segs p
  rw [hs] at hns hne hj
  have hc : Clean l := ⟨hne, hns, fun x hx => (hd x hx).1, fun i hi => absurd rfl (hd _ (List.mem_of_getElem? hi)).2, by
    rintro rfl
    exact (hd [46, 46] (by simp)).2 rfl⟩
  have := removeDots_clean hc
  rwa [hj] at this

theorem rfc_dotless {l : List Bytes} : ∀ (out : Bytes), (∀ s ∈ l, (47 : UInt8) ∉ s) → (∀ s ∈ l, s ≠ [46] ∧ s ≠ [46, 46]) →
    rfcDots (joinSegs true l) out = out ++ joinSegs true l := by
  induction l with
  | nil => intro out _ _; simp [joinSegs, rfcDots]
  | cons s r ih =>
    intro out h1 h2
    rw [joinSegs]
    simp only [if_true, List.cons_append, List.nil_append]
    rw [rfc_name out (h1 s (by simp)) (h2 s (by simp)).1 (h2 s (by simp)).2 (by
      cases r
      · exact .inl rfl
      · exact .inr (by simp [joinSegs]))]
    rw [ih _ (fun x h => h1 x (by simp [h])) (fun x h => h2 x (by simp [h]))]
    simp

theorem rfc_first {s t : Bytes} (out : Bytes) (hs : (47 : UInt8) ∉ s) (h0 : s ≠ []) (h1 : s ≠ [46]) (h2 : s ≠ [46, 46])
    (ht : t = [] ∨ ∃ r, t = 47 :: r) : rfcDots (s ++ t) out = rfcDots t (out ++ s) := by
  obtain ⟨a, u, rfl⟩ := List.exists_cons_of_ne_nil h0
  have ha : a ≠ 47 := by simp at hs; exact fun e => hs.1 e.symm
  have hu : (47 : UInt8) ∉ u := by simp at hs; exact hs.2
  have hsp := span_eq (p := fun c => decide (c ≠ 47)) (a := u) (b := t)
    (by intro c hc; simp; rintro rfl; exact hu hc) (by
      rcases ht with rfl | ⟨r, rfl⟩
      · exact .inl rfl
      · exact .inr ⟨47, r, rfl, by simp⟩)
  have hE : ∀ c r, c :: r = a :: (u ++ t) →
      rfcDots (r.dropWhile (· ≠ 47)) (out ++ c :: r.takeWhile (· ≠ 47)) = rfcDots t (out ++ a :: u) := by
    rintro c r ⟨⟩
    rw [hsp.1, hsp.2]
  have key : ∀ r : Bytes, a :: (u ++ t) ≠ 46 :: 46 :: 47 :: r ∧ a :: (u ++ t) ≠ 46 :: 47 :: r ∧ a :: (u ++ t) ≠ [46] ∧
      a :: (u ++ t) ≠ [46, 46] := by
    intro r
    match u, hu, h1, h2 with
    | [], _, h1, _ =>
      simp at h1
      simp [h1]
    | [b], hu, _, h2 =>
      simp at hu h2
      have hb : b ≠ 47 := fun e => hu e.symm
      simp [hb]
      constructor
      · intro e1 e2; exact absurd e2 (h2 e1)
      · intro e1 e2; exact absurd e2 (h2 e1)
    | b :: c :: u, hu, _, _ =>
      simp at hu
      have hb : b ≠ 47 := fun e => hu.1 e.symm
      have hc : c ≠ 47 := fun e => hu.2.1 e.symm
      simp [hb, hc]
  rw [List.cons_append, rfcDots.eq_def]
  split
  · rename_i h; cases h
  · rename_i r h; exact absurd h (key r).1
  · rename_i r h; exact absurd h (key r).2.1
  · rename_i h; simp only [List.cons.injEq] at h; exact absurd h.1 ha
  · rename_i h; simp only [List.cons.injEq] at h; exact absurd h.1 ha
  · rename_i h; simp only [List.cons.injEq] at h; exact absurd h.1 ha
  · rename_i h; simp only [List.cons.injEq] at h; exact absurd h.1 ha
  · rename_i h; exact absurd h (key []).2.2.1
  · rename_i h; exact absurd h (key []).2.2.2
  · rename_i h
    exact hE _ _ h.symm

theorem removeDotSegments_dotless {p : Bytes} {l : List Bytes} (h : Segments p l) (hd : ∀ s ∈ l, s ≠ [46] ∧ s ≠ [46, 46]) :
    removeDotSegments p = p := by
  have hs := segments_iff.mp h
  have hns := segs_noslash p
  have hj := join_segs p
  rw [hs] at hns hj
  rw [← hj]
  unfold removeDotSegments
  cases l with
  | nil => simp [joinSegs, rfcDots]
  | cons s r =>
    have hr := rfc_dotless (l := r) s (fun x h => hns x (by simp [h])) (fun x h => hd x (by simp [h]))
    simp only [joinSegs, Bool.false_eq_true, if_false, List.nil_append]
    by_cases h0 : s = []
    · subst h0; simpa using hr
    · rw [rfc_first [] (hns s (by simp)) h0 (hd s (by simp)).1 (hd s (by simp)).2]
      · simpa using hr
      · cases r with
        | nil => exact .inl rfl
        | cons t r => exact .inr ⟨t ++ joinSegs true r, by simp [joinSegs]⟩

theorem cleanable_eq {p : Bytes} (h : Cleanable p) : removeDots p = removeDotSegments p := by
  cases h with
  | absolute h1 h2 h3 => exact dots_rfc_partial h1 h2 h3
  | dotless h1 h2 => rw [removeDots_dotless h1 h2, removeDotSegments_dotless h1 h2]

/-- The path dot segments are removed from. -/
def target (b r : Ref) : Bytes :=
  if r.scheme.isSome ∨ r.authority.isSome ∨ r.path.head? = some 47 then r.path
  else if r.path = [] then b.path else merge b r.path

/-- C46.  Resolving a reference against a base gives what RFC 3986 says.
Missing: paths that step out of the root (`dots_rfc_false`), "@" behind an authority without one
(`resolve_at_false`), a base whose own path has dot segments when the reference has no path. -/
theorem resolve_rfc_partial {b r : Ref} (hb : Usable b) (hr : Usable r) (hc : Cleanable (target b r))
    (hbase : r.scheme = none → r.authority = none → r.path = [] → ∃ l, Segments b.path l ∧ ∀ s ∈ l, s ≠ [46] ∧ s ≠ [46, 46]) :
    resolveURI (recompose b) (recompose r) = recompose (transform b r) := by
  have hp : ∀ x : Ref, protocolOf x ≠ [] ↔ x.scheme.isSome := by
    intro x; unfold protocolOf; cases x.scheme <;> simp
  have ha : ∀ x : Ref, authorityOf x ≠ [] ↔ x.authority.isSome := by
    intro x; unfold authorityOf; cases x.authority <;> simp
  have hq : ∀ x : Ref, searchOf x ≠ [] ↔ x.query.isSome := by
    intro x; unfold searchOf; cases x.query <;> simp
  have hce := cleanable_eq hc
  unfold resolveURI
  rw [parse_recompose hb, parse_recompose hr]
  simp only [resolvePath, hp, ha, hq]
  unfold target at hce hc
  rw [recompose_eq]
  unfold transform
  by_cases h1 : r.scheme.isSome
  · simp only [h1, true_or, if_true] at hce ⊢
    rw [hce]
    rfl
  · have e1 : protocolOf r = [] := by simpa using (not_congr (hp r)).mpr h1
    by_cases h2 : r.authority.isSome
    · simp only [h1, h2, true_or, or_true, if_true, if_false, Bool.false_eq_true] at hce ⊢
      rw [hce]
      rfl
    · simp only [h1, h2, false_or, if_false, Bool.false_eq_true] at hce hbase ⊢
      by_cases h3 : r.path = []
      · obtain ⟨l, h4, h5⟩ := hbase (by simpa using h1) (by simpa using h2) h3
        rw [if_neg (by simp [h3])]
        simp only [h3, if_true, removeDots_dotless h4 h5, ne_eq, not_true_eq_false, false_or]
        by_cases h6 : r.query.isSome
        · simp only [h6, if_true]; rfl
        · simp only [h6, if_false, Bool.false_eq_true]; rfl
      · simp only [h3, if_false, ne_eq, not_false_eq_true, true_or, if_true] at hce ⊢
        by_cases h4 : r.path.head? = some 47
        · simp only [h4, if_true] at hce ⊢
          rw [hce]
          rfl
        · simp only [h4, if_false] at hce ⊢
          have hm : (if b.authority.isSome = true ∧ b.path = [] then [47] else []) ++ upToSlash b.path ++ r.path = merge b r.path := by
            unfold merge upToSlash
            split
            · rename_i h; simp [h.2]
            · simp
          rw [hm, hce]
          rfl

theorem resolvePath_dots (b h : Info) : ∃ p, resolvePath b h = removeDots p := by
  unfold resolvePath
  split
  · exact ⟨_, rfl⟩
  · split <;> exact ⟨_, rfl⟩

/-- C46.  For any base and reference that can be taken apart, the path of the result has no "."
segment, and ".." only in front. -/
theorem resolve_no_dots {base href : Bytes} {b h : Info} (hb : parseURI base = some b) (hh : parseURI href = some h) :
    ∃ before path after, resolveURI base href = before ++ path ++ after ∧
      before = (if h.protocol ≠ [] then h.protocol else b.protocol) ++ (if h.protocol ≠ [] ∨ h.authority ≠ [] then h.authority else b.authority) ∧
      (∀ l, Segments path l → (∀ s ∈ l, s ≠ [46]) ∧
        ∀ i, l[i]? = some ([46, 46] : Bytes) → i = 0 ∨ (i = 1 ∧ l[0]? = some ([] : Bytes))) ∧
      removeDots path = path := by
  obtain ⟨p, hp⟩ := resolvePath_dots b h
  refine ⟨_, resolvePath b h, (if h.protocol ≠ [] ∨ h.authority ≠ [] ∨ h.pathname ≠ [] ∨ h.search ≠ [] then h.search else b.search) ++ h.hash, ?_, rfl, ?_, ?_⟩
  · unfold resolveURI
    rw [hb, hh]
    simp
  · intro l hl
    rw [hp] at hl
    exact no_dot_segments p l hl
  · rw [hp, dots_stable]

/-- An absolute reference without dot segments resolves to itself. -/
theorem resolve_absolute {x : Bytes} {bi : Info} {t : Ref} (hx : parseURI x = some bi) (ht : Usable t) (hs : t.scheme.isSome)
    (hp : removeDots t.path = t.path) : resolveURI x (recompose t) = recompose t := by
  unfold resolveURI
  rw [hx, parse_recompose ht]
  have : protocolOf t ≠ [] := by unfold protocolOf; cases h : t.scheme <;> simp [h] at hs ⊢
  simp only [resolvePath, this, ne_eq, not_false_eq_true, true_or, if_true, hp]
  rfl

/-- C46.  Resolving the result against the same base again changes nothing.
Missing: bases and references without scheme, results that cannot be told apart again
(`resolve_stable_false`), and what `resolve_rfc_partial` leaves out. -/
theorem resolve_stable_partial {b r : Ref} (hb : Usable b) (hr : Usable r) (hc : Cleanable (target b r))
    (hbase : r.scheme = none → r.authority = none → r.path = [] → ∃ l, Segments b.path l ∧ ∀ s ∈ l, s ≠ [46] ∧ s ≠ [46, 46])
    (hs : b.scheme.isSome ∨ r.scheme.isSome) (ht : Usable (transform b r)) :
    resolveURI (recompose b) (resolveURI (recompose b) (recompose r)) = resolveURI (recompose b) (recompose r) := by
  rw [resolve_rfc_partial hb hr hc hbase]
  refine resolve_absolute (parse_recompose hb) ht ?_ ?_
  · unfold transform
    by_cases h1 : r.scheme.isSome
    · simp [h1]
    · have h2 := hs.resolve_right h1
      simp only [h1, if_false, Bool.false_eq_true]
      split
      · exact h2
      · split
        · exact h2
        · split <;> exact h2
  · have hce := cleanable_eq hc
    unfold target at hce
    unfold transform
    by_cases h1 : r.scheme.isSome
    · simp only [h1, true_or, if_true] at hce ⊢
      rw [← hce, dots_stable]
    · by_cases h2 : r.authority.isSome
      · simp only [h1, h2, true_or, or_true, if_true, if_false, Bool.false_eq_true] at hce ⊢
        rw [← hce, dots_stable]
      · simp only [h1, h2, false_or, if_false, Bool.false_eq_true] at hce hbase ⊢
        by_cases h3 : r.path = []
        · obtain ⟨l, h4, h5⟩ := hbase (by simpa using h1) (by simpa using h2) h3
          simp only [h3, if_true]
          exact removeDots_dotless h4 h5
        · by_cases h4 : r.path.head? = some 47
          · simp only [h3, h4, if_true, if_false] at hce ⊢
            rw [← hce, dots_stable]
          · simp only [h3, h4, if_false] at hce ⊢
            rw [← hce, dots_stable]

/-! ### Non-vacuity and findings -/

/-- x://h:1/a/b?q -/
def exBase : Ref := ⟨some [120], some [104, 58, 49], [47, 97, 47, 98], some [113], none⟩
/-- ../c#f -/
def exRef : Ref := ⟨none, none, [46, 46, 47, 99], none, some [102]⟩

theorem exBase_usable : Usable exBase where
  visible := by decide
  scheme := by rintro s ⟨⟩; decide
  authority := by
    rintro a ⟨⟩
    refine ⟨false, .bare (host := [104]) (port := [58, 49]) (by decide) (.inr ⟨[49], rfl, by decide⟩), fun _ => ⟨by decide, ?_, ?_⟩⟩
    · rintro q ⟨⟩; decide
    · rintro q ⟨⟩
  path := by decide
  rooted _ := .inr rfl
  single h := by cases h
  colon h := by cases h
  query := by rintro q ⟨⟩; decide

theorem exRef_usable : Usable exRef where
  visible := by decide
  scheme := by rintro s ⟨⟩
  authority := by rintro s ⟨⟩
  path := by decide
  rooted h := by cases h
  single _ := by decide
  colon _ _ := by decide
  query := by rintro s ⟨⟩

/-- The hypotheses of `resolve_rfc_partial` and `resolve_stable_partial` are met: resolving
"../c#f" against "x://h:1/a/b?q" gives "x://h:1/c#f", and so does resolving that again. -/
example : resolveURI (recompose exBase) (recompose exRef) = recompose ⟨some [120], some [104, 58, 49], [47, 99], none, some [102]⟩ ∧
    resolveURI (recompose exBase) (resolveURI (recompose exBase) (recompose exRef)) = resolveURI (recompose exBase) (recompose exRef) := by
  have hc : Cleanable (target exBase exRef) := by
    show Cleanable (47 :: [97, 47, 46, 46, 47, 99])
    refine .absolute (l := [[97], [46, 46], [99]]) (by rw [segments_iff]; decide) ?_ (by decide)
    intro k
    match k with
    | 0 => simp
    | 1 => simp
    | 2 => simp
    | k + 3 => simp
  have ht : transform exBase exRef = ⟨some [120], some [104, 58, 49], [47, 99], none, some [102]⟩ := by
    have : removeDotSegments (merge exBase [46, 46, 47, 99]) = [47, 99] := by
      rw [show merge exBase [46, 46, 47, 99] = 47 :: [97, 47, 46, 46, 47, 99] from rfl]
      simp [removeDotSegments, rfcDots, dropSegment]
    have h2 : transform exBase exRef = ⟨some [120], some [104, 58, 49], removeDotSegments (merge exBase [46, 46, 47, 99]), none, some [102]⟩ := by
      simp [transform, exRef, exBase]
    rw [h2, this]
  have h1 := resolve_rfc_partial exBase_usable exRef_usable hc (fun _ _ h => by cases h)
  rw [ht] at h1
  refine ⟨h1, resolve_stable_partial exBase_usable exRef_usable hc (fun _ _ h => by cases h) (.inl rfl) ?_⟩
  rw [ht]
  exact {
    visible := by decide
    scheme := by rintro s ⟨⟩; decide
    authority := by
      rintro a ⟨⟩
      refine ⟨false, .bare (host := [104]) (port := [58, 49]) (by decide) (.inr ⟨[49], rfl, by decide⟩), fun _ => ⟨by decide, ?_, ?_⟩⟩
      · rintro q ⟨⟩
      · rintro q ⟨⟩; decide
    path := by decide
    rooted := fun _ => .inr rfl
    single := fun h => by cases h
    colon := fun h => by cases h
    query := by rintro q ⟨⟩ }

/-- C46, finding: an "@" in the query is taken for the end of a user name, which then extends over
the path: dot segments in "x://h/a/../b?@" stay. -/
theorem resolve_at_false : resolveURI [120, 58, 47, 47, 104, 47, 97, 47, 46, 46, 47, 98, 63, 64] [] =
    [120, 58, 47, 47, 104, 47, 97, 47, 46, 46, 47, 98, 63, 64] := by decide

/-- C46, finding: resolving "?@/a/../z" against "x://h/" gives "x://h/?@/a/../z", and resolving that
again gives "x://h/?@/z". -/
theorem resolve_stable_false :
    resolveURI [120, 58, 47, 47, 104, 47] [63, 64, 47, 97, 47, 46, 46, 47, 122] =
      [120, 58, 47, 47, 104, 47, 63, 64, 47, 97, 47, 46, 46, 47, 122] ∧
    resolveURI [120, 58, 47, 47, 104, 47] [120, 58, 47, 47, 104, 47, 63, 64, 47, 97, 47, 46, 46, 47, 122] =
      [120, 58, 47, 47, 104, 47, 63, 64, 47, 122] := by decide

end Verif.Uri
