import Verif.Args.Validate
import Verif.Args.ValidateEntry
/-!
# C105: `ArgParse::Validate`
-/

namespace Verif.Args
open Verif JsonDrv Schema

variable {w : World} {E : Env}

/-- **C105**, part: `Validate` accepts a parser exactly if its description has the form that `DescriptionOk` says, and throws
otherwise. -/
theorem validate_iff (hp : 64 ≤ E.p) {ord : List Int32 → List Int32} {P : Parser} {d : Val} (hd : getDescription ord P = .ok d) :
    (validateParser E ord P = .ok () ↔ DescriptionOk E d) ∧ (¬ DescriptionOk E d → validateParser E ord P = .throw .runtime) := by
  have h := description_run hp d
  have h1 : DescriptionOk E d → validateParser E ord P = .ok () := by
    intro hok
    unfold validateParser
    rw [hd]; dsimp only
    rw [h.1 hok]; rfl
  have h2 : ¬ DescriptionOk E d → validateParser E ord P = .throw .runtime := by
    intro hno
    obtain ⟨e, se, h3, h4⟩ := h.2 hno
    unfold validateParser
    rw [hd]; dsimp only
    rw [h3]; dsimp only
    rw [if_pos h4]
  refine ⟨⟨fun hv => ?_, h1⟩, h2⟩
  refine Classical.byContradiction fun hno => ?_
  rw [h2 hno] at hv; cases hv

/-- **C105**, part: `Validate` of any parser a program can have returns or throws; it does nothing else. -/
theorem validate_total (hp : 64 ≤ E.p) {P : Parser} (hP : Built w P) {ord : List Int32 → List Int32} (ho : ∀ l, (ord l).Perm l) :
    validateParser E ord P = .ok () ∨ validateParser E ord P = .throw .runtime := by
  rcases description_total hP ho with ⟨d, hd⟩ | ⟨hd, _⟩
  · by_cases h : DescriptionOk E d
    · exact .inl ((validate_iff hp hd).1.2 h)
    · exact .inr ((validate_iff hp hd).2 h)
  · unfold validateParser; rw [hd]; exact .inr rfl

/-! ## Parsers of programs -/

theorem plain_start : Start PlainForm where
  title t := ⟨fun _ => ⟨t, rfl⟩, fun h => absurd h (by decide), fun h => absurd h (by decide)⟩
  description t := ⟨fun _ => ⟨t, rfl⟩, fun h => absurd h (by decide), fun h => absurd h (by decide)⟩
  minArgs := ⟨fun h => absurd h (by decide), fun _ => isSize_one, fun h => absurd h (by decide)⟩
  maxArgs := ⟨fun h => absurd h (by decide), fun _ => isSize_one, fun h => absurd h (by decide)⟩

/-- A form for other keys. -/
theorem plain_other {k : Bytes} {v : Val} (h : k ∉ [kDescription, kTitle, kMaxArgs, kMaxLength, kMinArgs, kMinLength, kMaximum, kMinimum]) :
    PlainForm k v := by
  simp only [List.mem_cons, List.not_mem_nil, or_false, not_or] at h
  obtain ⟨h1, h2, h3, h4, h5, h6, h7, h8⟩ := h
  unfold PlainForm
  simp [h1, h2, h3, h4, h5, h6, h7, h8]

theorem plain_text {k : Bytes} (h : k = kDescription ∨ k = kTitle) (t : Bytes) : PlainForm k (.str t) := by
  rcases h with rfl | rfl
  · exact plain_start.description t
  · exact plain_start.title t

theorem plain_size {k : Bytes} (h : k ∈ [kMaxArgs, kMaxLength, kMinArgs, kMinLength]) (n : UInt64) : PlainForm k (.uint n) :=
  ⟨fun h' => by
    simp only [List.mem_cons, List.not_mem_nil, or_false] at h h'
    rcases h' with rfl | rfl <;> exact absurd h (by decide), fun _ => isSize_uint n, fun _ => rfl⟩

theorem plain_limit {k : Bytes} (h : k ∈ [kMaximum, kMinimum]) {v : Val} (hv : isNumber v = true) : PlainForm k v :=
  ⟨fun h' => by
    simp only [List.mem_cons, List.not_mem_nil, or_false] at h h'
    rcases h' with rfl | rfl <;> exact absurd h (by decide), fun h' => by
    simp only [List.mem_cons, List.not_mem_nil, or_false] at h h'
    rcases h' with rfl | rfl | rfl | rfl <;> exact absurd h (by decide), fun _ => hv⟩

/-- What a setter puts under a key. -/
def Setter.puts (f : Setter) (F : Bytes → Val → Prop) : Prop :=
  match f with
  | .title t => F kTitle (.str t)
  | .const v => F kConst v
  | .default v => F kDefault v
  | .env t => F kEnv (.str t)
  | .minimum v => isNumber v = true → F kMinimum v
  | .maximum v => isNumber v = true → F kMaximum v
  | .help t => F kDescription (.str t)
  | .pattern t => F kPattern (.str t)
  | .maxLength n => F kMaxLength (.uint n.toUInt64)
  | .minLength n => F kMinLength (.uint n.toUInt64)
  | .minArgs n => F kMinArgs (.uint n.toUInt64)
  | .maxArgs n => F kMaxArgs (.uint n.toUInt64)
  | .numArgs n => F kMinArgs (.uint n.toUInt64) ∧ F kMaxArgs (.uint n.toUInt64)
  | .setChoices vs => F kEnum (.list vs)
  | _ => True

/-- Setters keep forms. -/
theorem Setter.neat {F : Bytes → Val → Prop} (p : Nat) (f : Setter) (hf : f.puts F)
    (hc : ∀ v, f = .addChoice v → F kEnum (.list [v]) ∧
      ∀ xs, F kEnum (.list xs) → xs.any (fun x => veq p x v) = false → F kEnum (.list (xs ++ [v]))) (c : Config) (h : Neat F c) :
    Neat F (f.run p c).1 := by
  have hd : ∀ t, Neat F (defaultType c t) := fun t => h.same rfl
  cases f with
  | title t => exact h.setOpt hf
  | action a => simp only [Setter.run]; split <;> exact h.same rfl
  | actionName a => simp only [Setter.run]; split <;> exact h.same rfl
  | type t => simp only [Setter.run]; split <;> exact h.same rfl
  | typeName t => simp only [Setter.run]; split <;> exact h.same rfl
  | const v => exact h.setOpt hf
  | default v => exact h.setOpt hf
  | env t => exact h.setOpt hf
  | minimum v =>
    simp only [Setter.run, setLimit]
    split
    · rename_i hv; exact (hd _).setOpt (hf hv)
    · exact h
  | maximum v =>
    simp only [Setter.run, setLimit]
    split
    · rename_i hv; exact (hd _).setOpt (hf hv)
    · exact h
  | addChoice v =>
    obtain ⟨c1, c2⟩ := hc v rfl
    simp only [Setter.run, withChoice]
    split
    · exact h.setOpt c1
    · rename_i xs hx
      dsimp only
      split
      · exact h
      · rename_i hn
        exact h.setOpt (c2 xs (h _ _ hx) (by simpa using hn))
    · exact h
    · exact h
  | setChoices vs => exact h.setOpt hf
  | required on => exact h.same rfl
  | help t => exact h.setOpt hf
  | pattern t => exact (hd _).setOpt hf
  | maxLength n => exact (hd _).setOpt hf
  | minLength n => exact (hd _).setOpt hf
  | minArgs n => exact Neat.same (h.setOpt hf) rfl
  | maxArgs n => exact h.setOpt hf
  | numArgs n => exact Neat.setOpt (Neat.same (h.setOpt hf.1) rfl) hf.2
  | advanced b => exact h.same rfl

theorem plain_puts (f : Setter) : f.puts PlainForm := by
  cases f with
  | title t => exact plain_text (.inr rfl) t
  | help t => exact plain_text (.inl rfl) t
  | minimum v => exact fun hv => plain_limit (by decide) hv
  | maximum v => exact fun hv => plain_limit (by decide) hv
  | maxLength n => exact plain_size (by decide) _
  | minLength n => exact plain_size (by decide) _
  | minArgs n => exact plain_size (by decide) _
  | maxArgs n => exact plain_size (by decide) _
  | numArgs n => exact ⟨plain_size (by decide) _, plain_size (by decide) _⟩
  | const v => exact plain_other (by decide)
  | default v => exact plain_other (by decide)
  | env v => exact plain_other (by decide)
  | pattern v => exact plain_other (by decide)
  | setChoices v => exact plain_other (by decide)
  | _ => trivial

/-- The parts of a description of good form. -/
theorem descriptionOk_parts {d : Val} (h : DescriptionOk E d) :
    (∀ e ∈ mapIn d kOptions, OptionOk E e.2) ∧ ∀ v ∈ listIn d kArguments, ArgumentOk E v := by
  obtain ⟨m, rfl, h⟩ := h
  refine ⟨fun e he => ?_, fun v hv => ?_⟩
  · obtain ⟨m', e1, hx⟩ := h kOptions (MapOf (OptionOk E)) (by simp) _ (get_mem_of (mapIn_get he))
    cases e1
    exact hx e.1 e.2 he
  · obtain ⟨m', e1, hx⟩ := h kArguments (fun v => ∃ xs, v = .list xs ∧ ∀ x ∈ xs, ArgumentOk E x) (by simp) _ (get_mem_of (listIn_get hv))
    cases e1
    exact hx v hv

theorem entryOk_plain {m : List (Bytes × Val)} (h : EntryOk E m) {k : Bytes} {x : Val} (hx : AMap.get m k = some x) : PlainForm k x := by
  have hm := get_mem_of hx
  refine ⟨fun hk => ?_, fun hk => ?_, fun hk => ?_⟩
  all_goals simp only [List.mem_cons, List.not_mem_nil, or_false] at hk
  · rcases hk with rfl | rfl <;> exact h.keys _ IsText (by simp [entryForms]) x hm
  · rcases hk with rfl | rfl | rfl | rfl <;> exact h.keys _ IsSize (by simp [entryForms]) x hm
  · rcases hk with rfl | rfl <;> exact h.keys _ (fun v => isNumber v = true) (by simp [entryForms]) x hm

theorem optionOk_fit {v : Val} (h : OptionOk E v) : OptionFit w PlainForm False v := by
  obtain ⟨m, rfl, h1, h2, _⟩ := h
  exact ⟨fun k x hx => entryOk_plain h1 hx, fun x hx => h2 kEnv IsText (by simp) x (get_mem_of hx), nofun⟩

theorem plain_fit (c : PCall) (hm : ∀ d, c = .merge d → DescriptionOk E d) : c.fit w PlainForm False := by
  cases c with
  | addOption _ _ _ _ _ => exact nofun
  | set id f => exact f.neat w.p (plain_puts f) fun v _ => ⟨plain_other (by decide), fun _ _ _ => plain_other (by decide)⟩
  | merge d =>
    obtain ⟨h1, h2⟩ := descriptionOk_parts (hm d rfl)
    refine ⟨fun e he => optionOk_fit (h1 e he), fun v hv k x hx => ?_⟩
    obtain ⟨m, rfl, h3, _⟩ := h2 v hv
    exact entryOk_plain h3 hx
  | _ => trivial

/-- **C105**: what `Validate` finds.  In a parser whose merged descriptions had the right form, only three things can be wrong: an
option without name, a pattern that is no regular expression, and choices that are empty, not distinct or not scalar. -/
theorem validate_finds (hp : 64 ≤ E.p) {title : Bytes} {help : Bool} {cs : List PCall} (hc : ∀ c ∈ cs, PCall.proper c)
    (hm : ∀ d, PCall.merge d ∈ cs → DescriptionOk E d) {P : Parser} (hb : build w (newParser title help) cs = some P)
    {ord : List Int32 → List Int32} {d : Val} (hd : getDescription ord P = .ok d) :
    validateParser E ord P = .ok () ↔
      (∀ t v, (t, v) ∈ mapIn d kOptions → HasName v ∧ ChecksOk E v) ∧ ∀ v ∈ listIn d kArguments, ChecksOk E v := by
  rw [(validate_iff hp hd).1]
  obtain ⟨h1, h2⟩ := build_tidy (w := w) (N := False) plain_start cs (P := newParser title help) (sound_init w help) (tidy_init help)
    (fun c hcs => ⟨hc c hcs, plain_fit c fun d e => hm d (e ▸ hcs)⟩) hb
  exact tidy_description h1 h2 hd

/-! ## Programs whose parsers are valid -/

/-- Choices: scalars, not equal to each other. -/
def Choices (E : Env) (xs : List Val) : Prop := xs ≠ [] ∧ (∀ x ∈ xs, IsChoice x) ∧ Schema.Distinct E xs

/-- The names in a description: the short name is ASCII, or there is a long one. -/
def NamesFit (d : Val) : Prop := ∀ t v x, (t, v) ∈ mapIn d kOptions → getKey? v kShortOption = some (.str x) →
  (∀ b, x.head? = some b → b < 128) ∨ ∃ l, l ≠ [] ∧ getKey? v kLongOption = some (.str l)

/-- A call with arguments that make sense. -/
def PCall.sane (E : Env) : PCall → Prop
  | .addOption _ short long _ _ => 0 ≤ short ∨ long ≠ []
  | .set _ (.pattern t) => IsRegex E (.str t)
  | .set _ (.addChoice v) => IsChoice v
  | .set _ (.setChoices vs) => Choices E vs
  | .merge d => DescriptionOk E d ∧ NamesFit d
  | _ => True

/-- What sane calls see to. -/
def SaneForm (E : Env) (k : Bytes) (v : Val) : Prop :=
  PlainForm k v ∧ (k = kPattern → IsRegex E v) ∧ (k = kEnum → ∃ xs, v = .list xs ∧ Choices E xs)

theorem sane_of_plain {k : Bytes} {v : Val} (h : PlainForm k v) (h1 : k ≠ kPattern) (h2 : k ≠ kEnum) : SaneForm E k v :=
  ⟨h, fun e => absurd e h1, fun e => absurd e h2⟩

theorem sane_start : Start (SaneForm E) :=
  ⟨fun t => sane_of_plain (plain_start.title t) (by decide) (by decide), fun t => sane_of_plain (plain_start.description t) (by decide) (by decide),
   sane_of_plain plain_start.minArgs (by decide) (by decide), sane_of_plain plain_start.maxArgs (by decide) (by decide)⟩

theorem sane_puts {id : Int32} (f : Setter) (h : (PCall.set id f).sane E) : f.puts (SaneForm E) := by
  have hp := plain_puts f
  cases f with
  | title t => exact sane_of_plain hp (by decide) (by decide)
  | help t => exact sane_of_plain hp (by decide) (by decide)
  | minimum v => exact fun hv => sane_of_plain (hp hv) (by decide) (by decide)
  | maximum v => exact fun hv => sane_of_plain (hp hv) (by decide) (by decide)
  | maxLength n => exact sane_of_plain hp (by decide) (by decide)
  | minLength n => exact sane_of_plain hp (by decide) (by decide)
  | minArgs n => exact sane_of_plain hp (by decide) (by decide)
  | maxArgs n => exact sane_of_plain hp (by decide) (by decide)
  | numArgs n => exact ⟨sane_of_plain hp.1 (by decide) (by decide), sane_of_plain hp.2 (by decide) (by decide)⟩
  | const v => exact sane_of_plain hp (by decide) (by decide)
  | default v => exact sane_of_plain hp (by decide) (by decide)
  | env v => exact sane_of_plain hp (by decide) (by decide)
  | pattern v => exact ⟨hp, fun _ => h, fun e => absurd e (by decide)⟩
  | setChoices v => exact ⟨hp, fun e => absurd e (by decide), fun _ => ⟨v, rfl, h⟩⟩
  | _ => trivial

theorem distinct_one (v : Val) : Schema.Distinct E [v] := by
  intro i j x y hij hx hy
  rcases Nat.eq_zero_or_pos j with rfl | hj
  · omega
  · rw [List.getElem?_eq_none (by simp; omega)] at hy; cases hy

theorem distinct_snoc {xs : List Val} {v : Val} (h : Schema.Distinct E xs) (hn : xs.any (fun x => veq E.p x v) = false) : Schema.Distinct E (xs ++ [v]) := by
  intro i j x y hij hx hy
  have hj : j < (xs ++ [v]).length := (List.getElem?_eq_some_iff.1 hy).1
  rw [List.length_append, List.length_singleton] at hj
  have hi : i < xs.length := by omega
  rw [List.getElem?_append_left hi] at hx
  by_cases e : j < xs.length
  · rw [List.getElem?_append_left e] at hy
    exact h i j x y hij hx hy
  · have : j = xs.length := by omega
    subst this
    rw [List.getElem?_append_right (Nat.le_refl _), Nat.sub_self] at hy
    cases hy
    rw [List.any_eq_false] at hn
    simpa using hn x (List.mem_of_getElem? hx)

theorem choices_one {v : Val} (h : IsChoice v) : Choices E [v] := ⟨nofun, by simpa using h, distinct_one v⟩

theorem choices_snoc {xs : List Val} {v : Val} (h : Choices E xs) (hv : IsChoice v) (hn : xs.any (fun x => veq E.p x v) = false) : Choices E (xs ++ [v]) := by
  refine ⟨by simp, fun x hx => ?_, distinct_snoc h.2.2 hn⟩
  rcases List.mem_append.1 hx with hx | hx
  · exact h.2.1 x hx
  · simp at hx; subst hx; exact hv

theorem entryOk_sane {m : List (Bytes × Val)} (h : EntryOk E m) {k : Bytes} {x : Val} (hx : AMap.get m k = some x) : SaneForm E k x := by
  have hm := get_mem_of hx
  refine ⟨entryOk_plain h hx, ?_, ?_⟩
  · rintro rfl; exact h.keys _ (IsRegex E) (by simp [entryForms]) x hm
  · rintro rfl
    obtain ⟨xs, e, h1, h2, h3⟩ := h.keys _ (SetOf E IsChoice) (by simp [entryForms]) x hm
    refine ⟨xs, e, ?_, h2, h3⟩
    rintro rfl; exact h1 rfl

theorem firstChar_nonneg {t : Bytes} (h : ∀ b, t.head? = some b → b < 128) : 0 ≤ firstChar t := by
  have key : ∀ b : UInt8, b < 128 → 0 ≤ b.toInt8.toInt32 := by
    intro b hb
    have : ∀ n, n < 128 → (0 : Int32) ≤ (UInt8.ofNat n).toInt8.toInt32 := by decide
    have := this b.toNat (UInt8.lt_iff_toNat_lt.1 hb)
    simpa using this
  unfold firstChar
  cases t with
  | nil => decide
  | cons b t => exact key b (h b rfl)

theorem sane_fit (hw : E.p = w.p) (c : PCall) (h : c.sane E) : c.fit w (SaneForm E) True := by
  cases c with
  | addOption _ _ _ _ _ => exact fun _ => h
  | set id f =>
    refine f.neat w.p (sane_puts f h) fun v e => ?_
    subst e
    refine ⟨⟨plain_other (by decide), fun e => absurd e (by decide), fun _ => ⟨_, rfl, choices_one h⟩⟩,
      fun xs hxs hn => ⟨plain_other (by decide), fun e => absurd e (by decide), fun _ => ⟨_, rfl, ?_⟩⟩⟩
    obtain ⟨ys, e, hys⟩ := hxs.2.2 rfl
    cases e
    exact choices_snoc hys h (by rw [hw]; exact hn)
  | merge d =>
    obtain ⟨h1, h2⟩ := descriptionOk_parts h.1
    refine ⟨fun e he => ?_, fun v hv k x hx => ?_⟩
    · have hn := h.2 e.1 e.2
      obtain ⟨m, hm, g1, g2, _⟩ := h1 e he
      rw [hm] at hn ⊢
      refine ⟨fun k x hx => entryOk_sane g1 hx, fun x hx => g2 kEnv IsText (by simp) x (get_mem_of hx), fun _ short long hs hl => ?_⟩
      unfold shortIn at hs
      cases hk : getKey? (Val.map m) kShortOption with
      | none => rw [hk] at hs; cases hs; exact .inl (by decide)
      | some v =>
        rw [hk] at hs
        obtain ⟨x, rfl, _⟩ := g2 kShortOption IsChar (by simp) v (get_mem_of hk)
        cases hs
        have he' : (e.1, Val.map m) ∈ mapIn d kOptions := by rw [← hm]; exact he
        rcases hn x he' hk with h | ⟨l, h, hl'⟩
        · exact .inl (firstChar_nonneg h)
        · unfold textOr at hl
          rw [hl'] at hl
          cases hl
          exact .inr h
    · obtain ⟨m, rfl, h3, _⟩ := h2 v hv
      exact entryOk_sane h3 hx
  | _ => trivial

/-- The lists of choices have sizes that an `unsigned` can count. -/
def FewChoices (d : Val) : Prop :=
  ∀ v, ((∃ t, (t, v) ∈ mapIn d kOptions) ∨ v ∈ listIn d kArguments) → ∀ xs, getKey? v kEnum = some (.list xs) → xs.length < 2 ^ 32

theorem tidy_mono {F G : Bytes → Val → Prop} {N : Prop} {s : St} (h : Tidy F N s) (hg : ∀ k v, F k v → G k v) : Tidy G N s :=
  ⟨fun i o ho k v hv => hg k v (h.forms i o ho k v hv), h.env, h.named⟩

theorem described_own {o : Opt} {v : Val} (ht : Told w o) (hd : describeOpt o = .ok v) {k : Bytes}
    (hk : k ∉ [kAdvanced, kKeypath, kRequired, kAction, kLongOption, kShortOption, kType]) {x : Val} (hx : getKey? v k = some x) :
    optGet o.cfg k = some x := by
  obtain ⟨_, m, hm, hs, _⟩ := ht
  obtain ⟨a, ha⟩ : ∃ a, actionWord o.cfg.action = .ok a := by
    unfold describeOpt at hd
    cases ha : actionWord o.cfg.action with
    | ok a => exact ⟨a, rfl⟩
    | throw e => rw [ha] at hd; cases hd
    | ub => rw [ha] at hd; cases hd
  obtain ⟨D, hD, _, hg⟩ := describeOpt_ok hm hs ha
  rw [hD] at hd; cases hd
  replace hx : AMap.get D k = some x := hx
  rw [hg, extra_none hk] at hx
  unfold optGet; rw [hm]; exact hx

/-- **C105**: a parser set up by calls that make sense passes `Validate`. -/
theorem validate_sane (hp : 64 ≤ E.p) (hw : E.p = w.p) {title : Bytes} {help : Bool} {cs : List PCall} (hc : ∀ c ∈ cs, PCall.proper c)
    (hs : ∀ c ∈ cs, c.sane E) {P : Parser} (hb : build w (newParser title help) cs = some P)
    {ord : List Int32 → List Int32} {d : Val} (hd : getDescription ord P = .ok d) (hf : FewChoices d) :
    validateParser E ord P = .ok () := by
  rw [(validate_iff hp hd).1]
  obtain ⟨h1, h2⟩ := build_tidy (w := w) (N := True) (sane_start (E := E)) cs (P := newParser title help) (sound_init w help) (tidy_init help)
    (fun c hcs => ⟨hc c hcs, sane_fit hw c (hs c hcs)⟩) hb
  have h3 : Tidy PlainForm True P.st := tidy_mono h2 fun _ _ h => h.1
  rw [tidy_description h1 h3 hd]
  obtain ⟨os, as_, gs, g1, g2, _, g4, g5, _⟩ := getDescription_parts hd
  have hcheck : ∀ i o v, P.st.entry i = some o → describeOpt o = .ok v → ((∃ t, (t, v) ∈ mapIn d kOptions) ∨ v ∈ listIn d kArguments) → ChecksOk E v := by
    intro i o v hi hv hin
    refine ⟨fun x hx => ?_, fun x hx => ?_⟩
    · exact (h2.forms i o hi _ _ (described_own (h1.told i o hi) hv (by decide) hx)).2.1 rfl
    · obtain ⟨xs, rfl, c1, c2, c3⟩ := (h2.forms i o hi _ _ (described_own (h1.told i o hi) hv (by decide) hx)).2.2 rfl
      refine ⟨xs, rfl, ?_, c2, c3⟩
      rw [Nat.mod_eq_of_lt (hf v hin xs hx)]
      exact fun e => c1 (List.length_eq_zero_iff.1 e)
  refine ⟨fun t v hv => ?_, fun v hv => ?_⟩
  · obtain ⟨i, o, hi, ho, hdo⟩ := option_source g1 (by rw [← g4]; exact hv)
    obtain ⟨D, _, _, _, _, _, g⟩ := entry_described (E := E) (h1.told i o ho) (h3.forms i o ho) (h3.env i o ho) hdo
    exact ⟨g.2 (h3.named trivial i hi o ho), hcheck i o v ho hdo (.inl ⟨t, hv⟩)⟩
  · obtain ⟨i, o, hi, ho, hdo⟩ := argument_source g2 (by rw [← g5]; exact hv)
    exact hcheck i o v ho hdo (.inr hv)

/-! ## Examples -/

/-- No regular expressions at all, as in `exWorld`. -/
def bareEnv : Env := ⟨64, fun _ => [], fun _ => .throw .runtime, fun _ => none⟩

theorem fewChoices_of {d : Val} (h : ((mapIn d kOptions).map (·.2) ++ listIn d kArguments).all (fun v => match getKey? v kEnum with
    | some (.list xs) => decide (xs.length < 2 ^ 32)
    | _ => true) = true) : FewChoices d := by
  intro v hv xs hx
  have hm : v ∈ (mapIn d kOptions).map (·.2) ++ listIn d kArguments := by
    rcases hv with ⟨t, h⟩ | h
    · exact List.mem_append.2 (.inl (List.mem_map.2 ⟨_, h, rfl⟩))
    · exact List.mem_append.2 (.inr h)
  have := List.all_eq_true.1 h v hm
  rw [hx] at this
  simpa using this

/-- The parser of `someCalls` has options, a choice, an argument and a group, and passes. -/
example : validateParser bareEnv id exParser = .ok () :=
  validate_sane (w := exWorld) (by decide) rfl (title := []) (help := true) (cs := someCalls) (by simp [someCalls, PCall.proper] <;> decide)
    (by
      intro c hc
      simp only [someCalls, List.mem_cons, List.not_mem_nil, or_false] at hc
      rcases hc with rfl | rfl | rfl | rfl | rfl | rfl | rfl | rfl | rfl | rfl | rfl
      · exact .inl (by decide)
      · trivial
      · exact .inr (.inr ⟨_, rfl⟩)
      · exact .inl (by decide)
      all_goals trivial)
    rfl rfl (fewChoices_of rfl)

/-! ## Findings -/

/-- Validating the parser of some calls, and how the calls ended. -/
def validated (cs : List PCall) : Option (Out Unit) := (build exWorld (newParser [] true) cs).map (validateParser bareEnv id)

theorem rejected {cs : List PCall} {P : Parser} {d : Val} (hc : ∀ c ∈ cs, PCall.proper c) (hm : ∀ d, PCall.merge d ∈ cs → DescriptionOk bareEnv d)
    (hb : build exWorld (newParser [] true) cs = some P) (hd : getDescription id P = .ok d)
    {t : Bytes} {v : Val} (hv : (t, v) ∈ mapIn d kOptions) (hn : HasName v → ¬ ChecksOk bareEnv v) : validated cs = some (.throw .runtime) := by
  unfold validated
  rw [hb]
  rcases validate_total (E := bareEnv) (by decide) (w := exWorld) ⟨[], true, cs, hc, hb⟩ (ord := id) (fun l => .refl l) with h | h
  · have := ((validate_finds (E := bareEnv) (by decide) hc hm hb hd).1 h).1 t v hv
    exact absurd this.2 (hn this.1)
  · show some (validateParser bareEnv id P) = _; rw [h]

/-- `SetChoices` takes an empty list; `Validate` throws. -/
theorem no_choices_false : validated [.addOption [97] 97 [] [] .store, .set 97 (.setChoices [])] = some (.throw .runtime) :=
  rejected (d := .map _) (by simp [PCall.proper] <;> decide) (by simp) rfl rfl (t := [47, 97]) List.mem_cons_self fun _ h => by
    obtain ⟨xs, e, h1, _⟩ := h.2 (.list []) rfl
    cases e; exact h1 rfl

/-- `SetChoices` takes a list with two equal choices; `Validate` throws. -/
theorem same_choices_false : validated [.addOption [97] 97 [] [] .store, .set 97 (.setChoices [.str [97], .str [97]])] = some (.throw .runtime) :=
  rejected (d := .map _) (by simp [PCall.proper] <;> decide) (by simp) rfl rfl (t := [47, 97]) List.mem_cons_self fun _ h => by
    obtain ⟨xs, e, _, _, h2⟩ := h.2 (.list [.str [97], .str [97]]) rfl
    cases e
    have := h2 0 1 _ _ (by decide) rfl rfl
    rw [(veq_str (p := bareEnv.p) [97]).2 rfl] at this
    cases this

/-- `AddChoice` takes null; `Validate` throws. -/
theorem null_choice_false : validated [.addOption [97] 97 [] [] .store, .set 97 (.addChoice .null)] = some (.throw .runtime) :=
  rejected (d := .map _) (by simp [PCall.proper] <;> decide) (by simp) rfl rfl (t := [47, 97]) List.mem_cons_self fun _ h => by
    obtain ⟨xs, e, _, h2, _⟩ := h.2 (.list [.null]) rfl
    cases e
    rcases h2 .null (by simp) with ⟨_, h⟩ | h | ⟨_, h⟩ <;> cases h

/-- `AddOption` takes a negative short name and no long name; `Validate` throws. -/
theorem nameless_option_false : validated [.addOption [97] (-1) [] [] .store] = some (.throw .runtime) :=
  rejected (d := .map _) (by simp [PCall.proper] <;> decide) (by simp) rfl rfl (t := [47, 97]) List.mem_cons_self fun h => by
    rcases h with h | h <;> cases h

/-- A description of good form whose only option has the short name 0xC8. -/
def latinOption : Val := .map [(kOptions, .map [([97], .map [(kAction, .str wStore), (kDescription, .str []), (kShortOption, .str [200]), (kTitle, .str [97])])])]

theorem latinOption_ok : DescriptionOk bareEnv latinOption := by
  refine ⟨_, rfl, fun k P hP v hv => ?_⟩
  simp only [List.mem_cons, List.not_mem_nil, or_false, Prod.mk.injEq] at hv
  obtain ⟨rfl, rfl⟩ := hv
  simp only [List.mem_cons, List.not_mem_nil, or_false, Prod.mk.injEq] at hP
  rcases hP with ⟨h, _⟩ | ⟨h, _⟩ | ⟨h, _⟩ | ⟨h, _⟩ | ⟨_, rfl⟩ | ⟨h, _⟩
  any_goals exact absurd h (by decide)
  refine ⟨_, rfl, fun t x hx => ?_⟩
  simp only [List.mem_cons, List.not_mem_nil, or_false, Prod.mk.injEq] at hx
  obtain ⟨rfl, rfl⟩ := hx
  refine ⟨_, rfl, ⟨fun k P hP v hv => ?_, rfl, rfl, rfl⟩, fun k P hP v hv => ?_, .inl rfl⟩
  · simp only [List.mem_cons, List.not_mem_nil, or_false, Prod.mk.injEq] at hv
    simp only [entryForms, List.mem_cons, List.not_mem_nil, or_false, Prod.mk.injEq] at hP
    rcases hv with ⟨rfl, rfl⟩ | ⟨rfl, rfl⟩ | ⟨rfl, rfl⟩ | ⟨rfl, rfl⟩
    all_goals
      rcases hP with ⟨h, hP⟩ | ⟨h, hP⟩ | ⟨h, hP⟩ | ⟨h, hP⟩ | ⟨h, hP⟩ | ⟨h, hP⟩ | ⟨h, hP⟩ | ⟨h, hP⟩ | ⟨h, hP⟩ | ⟨h, hP⟩ | ⟨h, hP⟩ |
        ⟨h, hP⟩ | ⟨h, hP⟩ | ⟨h, hP⟩ | ⟨h, hP⟩ | ⟨h, hP⟩
      all_goals first
        | exact absurd h (by decide)
        | (subst hP; first | exact ⟨_, rfl, by decide⟩ | exact ⟨_, rfl⟩)
  · simp only [List.mem_cons, List.not_mem_nil, or_false, Prod.mk.injEq] at hv hP
    rcases hv with ⟨rfl, rfl⟩ | ⟨rfl, rfl⟩ | ⟨rfl, rfl⟩ | ⟨rfl, rfl⟩
    all_goals
      rcases hP with ⟨h, hP⟩ | ⟨h, hP⟩ | ⟨h, hP⟩
      all_goals first
        | exact absurd h (by decide)
        | (subst hP; exact ⟨_, rfl, by decide⟩)

/-- A description of good form can be merged, and then the parser is not valid: `char` is signed. -/
theorem good_description_false : DescriptionOk bareEnv latinOption ∧ ((PCall.merge latinOption).run exWorld (newParser [] true)).2 = .ok () ∧
    validated [.merge latinOption] = some (.throw .runtime) :=
  ⟨latinOption_ok, rfl, rejected (d := .map _)
    (by
      intro c hc
      simp only [List.mem_cons, List.not_mem_nil, or_false] at hc
      subst hc
      simp [PCall.proper, latinOption, Val.WF, WFMap, AMap.Sorted, AMap.above] <;> decide)
    (by intro d hd; simp only [List.mem_cons, List.not_mem_nil, or_false, PCall.merge.injEq] at hd; subst hd; exact latinOption_ok)
    rfl rfl (t := [47, 97]) List.mem_cons_self fun h => by rcases h with h | h <;> cases h⟩

/-- The members of a group are written as a list of distinct texts, but `unique` is no keyword: they may be the same. -/
theorem members_twice_false : DescriptionOk bareEnv (.map [(kGroups, .map [([71], .map [(kMembers, .list [.str [97], .str [97]])])])]) := by
  refine ⟨_, rfl, fun k P hP v hv => ?_⟩
  simp only [List.mem_cons, List.not_mem_nil, or_false, Prod.mk.injEq] at hv
  obtain ⟨rfl, rfl⟩ := hv
  simp only [List.mem_cons, List.not_mem_nil, or_false, Prod.mk.injEq] at hP
  rcases hP with ⟨h, _⟩ | ⟨h, _⟩ | ⟨h, _⟩ | ⟨_, rfl⟩ | ⟨h, _⟩ | ⟨h, _⟩
  any_goals exact absurd h (by decide)
  refine ⟨_, rfl, fun t x hx => ?_⟩
  simp only [List.mem_cons, List.not_mem_nil, or_false, Prod.mk.injEq] at hx
  obtain ⟨rfl, rfl⟩ := hx
  refine ⟨_, rfl, fun k P hP v hv => ?_⟩
  simp only [List.mem_cons, List.not_mem_nil, or_false, Prod.mk.injEq] at hv hP
  obtain ⟨rfl, rfl⟩ := hv
  rcases hP with ⟨h, _⟩ | ⟨h, _⟩ | ⟨_, rfl⟩ | ⟨h, _⟩ | ⟨h, _⟩ | ⟨h, _⟩
  any_goals exact absurd h (by decide)
  exact ⟨_, rfl, by simp [IsText]⟩

end Verif.Args
