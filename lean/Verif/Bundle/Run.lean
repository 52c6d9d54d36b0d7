import Verif.Bundle.Read
import Verif.Bundle.Scan
/-!
# What the parser tells its handler
-/

namespace Verif.Bundle
open Verif Verif.JsonDrv

/-- The next field in some lines, and the lines after it. -/
def nextField : List Bytes → Option (Bytes × Bytes × List Bytes)
  | [] => none
  | l :: ls =>
    match scanLine l with
    | none => nextField ls
    | some (k, raw) => if Event.cstr k = versionKey then nextField ls else some (Event.cstr k, raw, ls)

theorem nextField_length : ∀ {ls : List Bytes} {k raw ls'}, nextField ls = some (k, raw, ls') → ls'.length < ls.length := by
  intro ls
  induction ls with
  | nil => intro k raw ls' h; cases h
  | cons l ls ih =>
    intro k raw ls' h
    rw [nextField] at h
    split at h
    · have := ih h; simp only [List.length_cons]; omega
    · split at h
      · have := ih h; simp only [List.length_cons]; omega
      · cases h; simp

theorem lines_cons {rem l : Bytes} {ls : List Bytes} {rest : Bytes} (h : Lines rem (l :: ls) rest) :
    ∃ t, rem = l ++ 10 :: t ∧ 10 ∉ l ∧ Lines t ls rest := by
  obtain ⟨h1, h2, h3⟩ := h
  refine ⟨(ls.map (· ++ [10])).flatten ++ rest, ?_, h2 l (by simp), rfl, fun x hx => h2 x (by simp [hx]), h3⟩
  rw [h1]; simp

theorem lines_nil {rem : Bytes} {rest : Bytes} (h : Lines rem [] rest) : rem = rest ∧ 10 ∉ rem := by
  obtain ⟨h1, _, h3⟩ := h
  have : rem = rest := h1
  exact ⟨this, this ▸ h3⟩

variable {σ : Type} {I : Input σ} {M : Nat} {R : Bytes → Nat → σ → Prop}

theorem readKey_spec (hI : Serves I M R) {lineFuel : Nat} (ls : List Bytes) :
    ∀ (fuel : Nat) (s : σ) (rem : Bytes) (avail : Nat) (rest : Bytes), R rem avail s → Lines rem ls rest →
      rem.length + 4096 ≤ M → rem.length < lineFuel → ls.length < fuel →
      ∃ s', match nextField ls with
        | none => readKey I lineFuel fuel s = some (s', .endMap, [])
        | some (k, raw, ls') => readKey I lineFuel fuel s = some (s', .value raw, [.key k]) ∧
            ∃ rem' avail', R rem' avail' s' ∧ Lines rem' ls' rest ∧ rem'.length ≤ rem.length := by
  induction ls with
  | nil =>
    intro fuel s rem avail rest hR hl hM hlf hf
    obtain ⟨fuel, rfl⟩ : ∃ n, fuel = n + 1 := ⟨fuel - 1, by simp at hf; omega⟩
    obtain ⟨h1, h2⟩ := lines_nil hl
    obtain ⟨s', av, r, h3, h4, h5⟩ := readLine_spec hI lineFuel s rem avail 0 0 hR (by omega) (by omega) (by simp)
      (by omega) (by omega) hM (by omega)
    rcases h5 with ⟨h5, _⟩ | ⟨_, rfl⟩
    · exact absurd h5 h2
    · exact ⟨s', by simp only [nextField]; rw [readKey, h3]⟩
  | cons l ls ih =>
    intro fuel s rem avail rest hR hl hM hlf hf
    obtain ⟨fuel, rfl⟩ : ∃ n, fuel = n + 1 := ⟨fuel - 1, by simp only [List.length_cons] at hf; omega⟩
    obtain ⟨t, rfl, h2, h3⟩ := lines_cons hl
    obtain ⟨s1, av, r, h4, h5, h6⟩ := readLine_spec hI lineFuel s _ avail 0 0 hR (by omega) (by omega) (by simp)
      (by omega) (by omega) hM (by omega)
    rcases h6 with ⟨_, rfl, h7⟩ | ⟨h6, _⟩
    · rw [line_split h2] at h4 h7
      obtain ⟨s2, h8, h9⟩ := hI.release h5 h7
      have hdrop : (l ++ 10 :: t).drop (l.length + 1) = t := by
        rw [List.drop_append]; simp
      rw [hdrop] at h9
      have hlen : t.length + 1 ≤ (l ++ 10 :: t).length := by simp
      obtain ⟨s3, h10⟩ := ih fuel s2 t _ rest h9 h3 (by omega) (by omega) (by simp only [List.length_cons] at hf; omega)
      rw [readKey, h4]
      dsimp only
      rw [h8]
      dsimp only
      rw [nextField]
      cases hs : scanLine l with
      | none =>
        dsimp only
        refine ⟨s3, ?_⟩
        revert h10
        cases hn : nextField ls with
        | none => exact id
        | some p =>
          obtain ⟨k, raw, ls'⟩ := p
          rintro ⟨h10, rem', av', h11, h12, h13⟩
          exact ⟨h10, rem', av', h11, h12, by omega⟩
      | some kv =>
        obtain ⟨k, raw⟩ := kv
        dsimp only
        by_cases hk : Event.cstr k = versionKey
        · simp only [if_pos hk]
          refine ⟨s3, ?_⟩
          revert h10
          cases hn : nextField ls with
          | none => exact id
          | some p =>
            obtain ⟨k, raw, ls'⟩ := p
            rintro ⟨h10, rem', av', h11, h12, h13⟩
            exact ⟨h10, rem', av', h11, h12, by omega⟩
        · simp only [if_neg hk]
          exact ⟨s2, rfl, t, _, h9, h3, by omega⟩
    · exact absurd (by simp) h6

/-- What is told about a value. -/
def valueEvs (raw : Bytes) : List BEv :=
  let ts := tokens (valueText raw).length (valueText raw)
  if ts.length ≤ 1 ∧ barAtEnd raw = false then [.text (oneText (valueText raw))]
  else .beginList :: (ts.map .text ++ [.endList])

/-- What is told about some fields. -/
def fieldEvs : List (Bytes × Bytes) → List BEv
  | [] => []
  | (k, raw) :: fs => .key k :: (valueEvs raw ++ fieldEvs fs)

/-- All fields of some lines. -/
def allFields : List Bytes → List (Bytes × Bytes)
  | [] => []
  | l :: ls =>
    match scanLine l with
    | none => allFields ls
    | some (k, raw) => if Event.cstr k = versionKey then allFields ls else (Event.cstr k, raw) :: allFields ls

theorem allFields_next (ls : List Bytes) : allFields ls = match nextField ls with
    | none => []
    | some (k, raw, ls') => (k, raw) :: allFields ls' := by
  induction ls with
  | nil => rfl
  | cons l ls ih =>
    rw [allFields, nextField]
    cases hs : scanLine l with
    | none => exact ih
    | some kv =>
      obtain ⟨k, raw⟩ := kv
      dsimp only
      by_cases hk : Event.cstr k = versionKey
      · simp only [if_pos hk]; exact ih
      · simp only [if_neg hk]

theorem allFields_fields (ls : List Bytes) : Fields ls (allFields ls) := by
  induction ls with
  | nil => exact .nil
  | cons l ls ih =>
    rw [allFields]
    cases hs : scanLine l with
    | none => exact .other ((scanLine_none_iff l).1 hs) ih
    | some kv =>
      obtain ⟨k, raw⟩ := kv
      have hf := (scanLine_iff l k raw).1 hs
      dsimp only
      by_cases hk : Event.cstr k = versionKey
      · rw [if_pos hk]; exact .version hf hk ih
      · rw [if_neg hk]; exact .field hf hk ih

theorem fields_unique {ls : List Bytes} {fs : List (Bytes × Bytes)} (h : Fields ls fs) : fs = allFields ls := by
  induction h with
  | nil => rfl
  | other h1 _ ih => rw [allFields, (scanLine_none_iff _).2 h1]; exact ih
  | version h1 h2 _ ih =>
    rw [allFields, (scanLine_iff _ _ _).2 h1]
    dsimp only
    rw [if_pos (show Event.cstr _ = versionKey from h2)]; exact ih
  | field h1 h2 _ ih =>
    rw [allFields, (scanLine_iff _ _ _).2 h1]
    dsimp only
    rw [if_neg (show ¬ Event.cstr _ = versionKey from h2), ih]; rfl

/-- One round. -/
theorem run_step {lineFuel fuel : Nat} {s s' : σ} {st st' : St} {es es' : List BEv} (hst : st ≠ .stop)
    (h : step I lineFuel s st = some (s', st', es)) (hr : run I lineFuel fuel s' st' = some es') :
    run I lineFuel (fuel + 1) s st = some (es ++ es') := by
  rw [run, if_neg hst, h]
  dsimp only
  rw [hr]; rfl

theorem run_list (s : σ) (ts : List Bytes) {lineFuel N : Nat} {es : List BEv}
    (h : ∀ fuel ≥ N, run I lineFuel fuel s .key = some es) :
    ∀ fuel ≥ N + ts.length + 1, run I lineFuel fuel s (.list ts) = some (ts.map .text ++ (.endList :: es)) := by
  induction ts with
  | nil =>
    intro fuel hf
    obtain ⟨fuel, rfl⟩ : ∃ n, fuel = n + 1 := ⟨fuel - 1, by simp at hf; omega⟩
    exact run_step (es := [.endList]) (s' := s) (st' := .key) (by simp) rfl (h fuel (by simp at hf; omega))
  | cons t ts ih =>
    intro fuel hf
    simp only [List.length_cons] at hf
    obtain ⟨fuel, rfl⟩ : ∃ n, fuel = n + 1 := ⟨fuel - 1, by omega⟩
    exact run_step (es := [.text t]) (by simp) rfl (ih fuel (by omega))

theorem run_value (s : σ) (raw : Bytes) {lineFuel N : Nat} {es : List BEv}
    (h : ∀ fuel ≥ N, run I lineFuel fuel s .key = some es) :
    ∀ fuel ≥ N + (tokens (valueText raw).length (valueText raw)).length + 2,
      run I lineFuel fuel s (.value raw) = some (valueEvs raw ++ es) := by
  intro fuel hf
  obtain ⟨fuel, rfl⟩ : ∃ n, fuel = n + 1 := ⟨fuel - 1, by omega⟩
  rw [valueEvs]
  by_cases hc : (tokens (valueText raw).length (valueText raw)).length ≤ 1 ∧ barAtEnd raw = false
  · rw [if_pos hc]
    exact run_step (st' := .key) (s' := s) (by simp) (by rw [step]; rw [if_pos hc]) (h fuel (by omega))
  · rw [if_neg hc]
    have := run_list s (tokens (valueText raw).length (valueText raw)) h fuel (by omega)
    have h2 := run_step (st := .value raw) (st' := .list (tokens (valueText raw).length (valueText raw))) (es := [.beginList])
      (s := s) (s' := s) (by simp) (by rw [step]; rw [if_neg hc]) this
    rw [h2]; simp

/-- How many rounds some fields take. -/
def cost : List (Bytes × Bytes) → Nat
  | [] => 4
  | (_, raw) :: fs => cost fs + (tokens (valueText raw).length (valueText raw)).length + 3

theorem run_key (hI : Serves I M R) {lineFuel : Nat} : ∀ (n : Nat) (ls : List Bytes) (s : σ) (rem : Bytes) (avail : Nat)
    (rest : Bytes), ls.length < n → R rem avail s → Lines rem ls rest → rem.length + 4096 ≤ M → rem.length < lineFuel →
      ls.length < lineFuel →
      ∀ fuel ≥ cost (allFields ls), run I lineFuel fuel s .key = some (fieldEvs (allFields ls) ++ [.endMap, .endDoc]) := by
  intro n
  induction n with
  | zero => intro ls _ _ _ _ h; omega
  | succ n ih =>
    intro ls s rem avail rest hn hR hl hM hlf hlf2
    obtain ⟨s', h1⟩ := readKey_spec hI ls lineFuel s rem avail rest hR hl hM hlf hlf2
    rw [allFields_next]
    revert h1
    cases hnx : nextField ls with
    | none =>
      intro h1
      dsimp only at h1
      intro fuel hf
      dsimp only [cost] at hf
      obtain ⟨fuel, rfl⟩ : ∃ n, fuel = n + 4 := ⟨fuel - 4, by omega⟩
      refine run_step (es := []) (es' := [.endMap, .endDoc]) (by simp) h1 ?_
      refine run_step (es := [.endMap]) (es' := [.endDoc]) (s' := s') (st' := .end) (by simp) rfl ?_
      refine run_step (es := [.endDoc]) (es' := []) (s' := s') (st' := .stop) (by simp) rfl ?_
      rw [run, if_pos rfl]
    | some p =>
      obtain ⟨k, raw, ls'⟩ := p
      intro h1
      dsimp only at h1
      obtain ⟨h1, rem', av', h2, h3, h4⟩ := h1
      have hlt := nextField_length hnx
      have h5 := ih ls' s' rem' av' rest (by omega) h2 h3 (by omega) (by omega) (by omega)
      have h6 := run_value s' raw h5
      intro fuel hf
      dsimp only [cost] at hf
      obtain ⟨fuel, rfl⟩ : ∃ n, fuel = n + 1 := ⟨fuel - 1, by omega⟩
      have := run_step (st := .key) (by simp) h1 (h6 fuel (by omega))
      rw [this]
      simp [fieldEvs]

theorem lines_length {rem : Bytes} {ls : List Bytes} {rest : Bytes} (h : Lines rem ls rest) : ls.length ≤ rem.length := by
  obtain ⟨rfl, h2⟩ := h
  clear h2
  induction ls with
  | nil => simp
  | cons l ls ih =>
    simp only [List.map_cons, List.flatten_cons, List.length_append, List.length_cons] at ih ⊢
    simp only [List.length_nil]
    omega

/-- The whole document. -/
theorem run_start (hI : Serves I M R) {ls : List Bytes} {s : σ} {content rest : Bytes} {lineFuel : Nat} (hR : R content 0 s)
    (hl : Lines content ls rest) (hM : content.length + 4096 ≤ M) (hlf : content.length < lineFuel) :
    ∀ fuel ≥ cost (allFields ls) + 2, run I lineFuel fuel s .start = some (if content = [] then [] else
      .beginDoc :: .beginMap :: (fieldEvs (allFields ls) ++ [.endMap, .endDoc])) := by
  obtain ⟨s1, v, h1, h2, h3, h4, _⟩ := hI.get (n := 0) hR (by omega)
  have hll := lines_length hl
  by_cases hc : content = []
  · subst hc
    have hv : v = [] := List.prefix_nil.1 h3
    subst hv
    intro fuel hf
    obtain ⟨fuel, rfl⟩ : ∃ n, fuel = n + 2 := ⟨fuel - 2, by omega⟩
    rw [if_pos rfl]
    refine run_step (es := []) (es' := []) (s' := s1) (st' := .stop) (by simp) (by rw [step, h1]) ?_
    rw [run, if_pos rfl]
  · rw [if_neg hc]
    obtain ⟨b, w, rfl⟩ : ∃ b w, v = b :: w := by
      cases v with
      | nil =>
        rcases h4 with h4 | h4
        · simp at h4
        · exact absurd h4.symm hc
      | cons b w => exact ⟨b, w, rfl⟩
    have h5 := run_key hI (ls.length + 1) ls s1 content _ rest (by omega) h2 hl hM hlf (by omega)
    intro fuel hf
    obtain ⟨fuel, rfl⟩ : ∃ n, fuel = n + 2 := ⟨fuel - 2, by omega⟩
    refine run_step (es := [.beginDoc]) (s' := s1) (st' := .beginMap) (by simp) (by rw [step, h1]) ?_
    exact run_step (es := [.beginMap]) (s' := s1) (st' := .key) (by simp) rfl (h5 fuel (by omega))

end Verif.Bundle
