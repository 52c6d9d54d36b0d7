import Verif.Args.HelpBuilt
import Verif.Args.ValidateProps
import Verif.Json.EmitBody
/-!
# C106: what the help shows
-/

namespace Verif.Args
open Verif JsonDrv Schema

variable {w : World} {s : St}

/-! ## Specification -/

/-- How a usage is read: words, dots and brackets. -/
inductive UsageForm where
  | done
  | word (rest : UsageForm)
  | more (rest : UsageForm)
  | maybe (inside rest : UsageForm)

/-- How it is written. -/
def UsageForm.tokens : UsageForm → List Use
  | .done => []
  | .word r => .word :: r.tokens
  | .more r => .more :: r.tokens
  | .maybe i r => .opened :: (i.tokens ++ .closed :: r.tokens)

/-- The numbers of words it allows: a word stands for itself, dots for any number of words, and what is in brackets, with the word
after the bracket, may be left out. -/
def UsageForm.allows : UsageForm → Nat → Prop
  | .done, n => n = 0
  | .word r, n => ∃ k, n = k + 1 ∧ r.allows k
  | .more r, n => ∃ j k, n = j + k ∧ r.allows k
  | .maybe i r, n => r.allows n ∨ ∃ a b, n = a + 1 + b ∧ i.allows a ∧ r.allows b

/-- A value that is printed as it is: not a list, a map or a blob. -/
def IsPlain : Val → Prop
  | .list _ => False
  | .map _ => False
  | .blob _ => False
  | _ => True

/-- Settings the help can print: texts, numbers of words that are not negative, choices that are plain, no blob as default. -/
def HelpForm (k : Bytes) (v : Val) : Prop :=
  (k = kTitle ∨ k = kEnv → IsText v) ∧ (k = kMinArgs ∨ k = kMaxArgs → (∃ n, v = .int n) ∨ ∃ n, v = .uint n) ∧
  (k = kEnum → ∀ xs, v = .list xs → ∀ x ∈ xs, IsPlain x) ∧ (k = kDefault → ∀ b, v ≠ .blob b)

/-- A call with arguments the help can print. -/
def PCall.showable : PCall → Prop
  | .set _ (.addChoice v) => IsPlain v
  | .set _ (.setChoices vs) => ∀ v ∈ vs, IsPlain v
  | .set _ (.default v) => ∀ b, v ≠ .blob b
  | .merge d => (∀ e ∈ mapIn d kOptions, ∀ k x, getKey? e.2 k = some x → HelpForm k x) ∧
      ∀ v ∈ listIn d kArguments, ∀ k x, getKey? v k = some x → HelpForm k x
  | _ => True

/-! ## The layout -/

/-- **C106**: the help of every parser.  It consists of the title, the usage of every argument, the description, the entries of
the arguments, those of the options in no group with a heading, those of the others under the headings of their groups, in the
order of the names of the groups, and the last text; options and arguments are in the order they were added. -/
theorem help_lays_out {P : Parser} (h : Built w P) :
    ∃ as_ os, P.st.reg.arguments.map P.st.entry = as_.map some ∧ P.st.reg.options.map P.st.entry = os.map some ∧
      ∀ adv, helpText w P adv = renderAll w (layout P adv as_ os) := by
  have hs := h.sound
  obtain ⟨as_, h1, h2⟩ := entriesOf_ok (s := P.st) (is := P.st.reg.arguments) fun i hi => hs.reg.known i (List.mem_append_right _ hi)
  obtain ⟨os, h3, h4⟩ := entriesOf_ok (s := P.st) (is := P.st.reg.options) fun i hi => hs.reg.known i (List.mem_append_left _ hi)
  exact ⟨as_, os, h2, h4, help_is_layout hs.names h.grouped h1 h3⟩

/-- **C106**: every argument has an entry in the help, every option one if it is to be shown, and none has two. -/
theorem help_shows_once {P : Parser} (h : Built w P) {as_ os : List Opt} (ho : P.st.reg.options.map P.st.entry = os.map some) (adv : Bool) :
    ∃ l, printedEntries (layout P adv as_ os) = as_ ++ l ∧ l.Perm (os.filter (visible P.st adv)) := by
  refine ⟨_, printed_layout P adv as_ os, shown_perm h.sound.names adv os fun o hm n hn => ?_⟩
  obtain ⟨i, _, he⟩ := entriesOf_mem (entriesOf_unique ho) o hm
  exact h.grouped i o (find_mem he) n hn

/-- **C106**: the advanced help shows all options. -/
theorem advanced_help_shows_all {P : Parser} (h : Built w P) {as_ os : List Opt} (ho : P.st.reg.options.map P.st.entry = os.map some) :
    (printedEntries (layout P true as_ os)).Perm (as_ ++ os) := by
  obtain ⟨l, h1, h2⟩ := help_shows_once h (as_ := as_) ho true
  rw [h1]
  have : os.filter (visible P.st true) = os := List.filter_eq_self.2 fun _ _ => rfl
  rw [this] at h2
  exact h2.append_left _

/-- **C106**: the other help shows nothing the advanced help does not show, and no option marked as advanced. -/
theorem basic_help_hides {P : Parser} (h : Built w P) {as_ os : List Opt} (ho : P.st.reg.options.map P.st.entry = os.map some) {o : Opt}
    (hm : o ∈ printedEntries (layout P false as_ os)) : o ∈ as_ ∨ (o ∈ os ∧ o.cfg.advanced = false) := by
  obtain ⟨l, h1, h2⟩ := help_shows_once h (as_ := as_) ho false
  rw [h1, List.mem_append] at hm
  rcases hm with hm | hm
  · exact .inl hm
  · obtain ⟨h3, h4⟩ := List.mem_filter.1 (h2.mem_iff.1 hm)
    refine .inr ⟨h3, ?_⟩
    simp only [visible, Bool.false_or, Bool.and_eq_true, Bool.not_eq_true'] at h4
    exact h4.1

/-! ## One entry -/

theorem out_map_ok {α β : Type} {x : Out α} {f : α → β} {b : β} (h : f <$> x = .ok b) : ∃ a, x = .ok a ∧ f a = b := by
  cases x with
  | ok a => cases h; exact ⟨a, rfl, rfl⟩
  | throw e => cases h
  | ub => cases h

theorem infix_mid {a b c t : Bytes} (h : t = a ++ b ++ c) : b <:+: t := ⟨a, c, h.symm⟩

theorem choiceText_mem {xs : List Val} {t : Bytes} (h : choiceText w xs = .ok t) {x : Val} (hx : x ∈ xs) :
    ∃ a, Build.asString w.fo.fltText x = .ok a ∧ a <:+: t := by
  induction xs generalizing t with
  | nil => cases hx
  | cons v vs ih =>
    cases vs with
    | nil =>
      simp only [List.mem_cons, List.not_mem_nil, or_false] at hx
      subst hx
      exact ⟨t, h, List.infix_refl _⟩
    | cons u vs =>
      unfold choiceText at h
      obtain ⟨a, ha, h⟩ := Out.bind_eq_ok.1 h
      obtain ⟨r, hr, h⟩ := Out.bind_eq_ok.1 h
      cases h
      rcases List.mem_cons.1 hx with rfl | hx
      · exact ⟨a, ha, ⟨[], [32, 124, 32] ++ r, by simp⟩⟩
      · obtain ⟨b, hb, p, q, e⟩ := ih hr hx
        exact ⟨b, hb, ⟨a ++ [32, 124, 32] ++ p, q, by rw [← e]; simp⟩⟩

/-- **C106**: the entry of an option or argument is a line with its names, its value and its environment variable, and a line with
its help text and its default.  The names are there; if it takes a word, so is every choice; the environment variable is there;
the help text is there, and after it the default in JSON, unless it is a list or map. -/
theorem entry_shows {o : Opt} {t : Bytes} (h : helpLine w true o = .ok t) :
    (∃ first d f, t = [9] ++ first ++ [10, 9, 9] ++ d ++ f ++ [10] ∧ (∃ v, optGet o.cfg kDescription = some v ∧ Build.asString w.fo.fltText v = .ok d) ∧
      (o.short > 0 → [45, (toChar o.short).toUInt8] <+: first) ∧
      (o.long ≠ [] → [45, 45] ++ o.long <:+: first) ∧
      (o.cfg.action = .store ∨ o.cfg.action = .append → ∀ xs, optGet o.cfg kEnum = some (.list xs) →
        ∀ x ∈ xs, ∃ a, Build.asString w.fo.fltText x = .ok a ∧ a <:+: first) ∧
      (∀ e, optGet o.cfg kEnv = some e → ∃ a, Build.asString w.fo.fltText e = .ok a ∧ [36] ++ a <:+: first) ∧
      (∀ v, optGet o.cfg kDefault = some v → IsPlain v → ∃ j, JsonEmit.body w.jsonFlt ⟨false, false, 4, 17⟩ 0 v = .ok j ∧ f = defaultWord ++ j ++ [41]) ∧
      (optGet o.cfg kDefault = none → f = [])) := by
  unfold helpLine at h
  rw [if_neg (by simp)] at h
  obtain ⟨a, ha, h⟩ := Out.bind_eq_ok.1 h
  obtain ⟨e, he, h⟩ := Out.bind_eq_ok.1 h
  obtain ⟨d, hd, h⟩ := Out.bind_eq_ok.1 h
  obtain ⟨f, hf, h⟩ := Out.bind_eq_ok.1 h
  cases h
  refine ⟨optionNames o ++ a ++ e, d, f, by simp, ?_, ?_, ?_, ?_, ?_, ?_, ?_⟩
  · unfold textPart at hd
    split at hd
    · cases hd
    · rename_i v hv; exact ⟨v, hv, hd⟩
  · intro hs
    unfold optionNames
    rw [if_pos hs]
    simp only [List.append_assoc]
    exact List.prefix_append _ _
  · intro hl
    refine infix_mid (a := (if o.short > 0 then [45, (toChar o.short).toUInt8] else []) ++ (if o.short > 0 ∧ o.long ≠ [] then [44, 32] else []))
      (c := a ++ e) ?_
    unfold optionNames
    rw [if_pos hl]
    simp only [List.append_assoc]
  · intro hact xs hxs x hx
    have hA : hasArg o.cfg.action = true := by rcases hact with h | h <;> rw [h] <;> rfl
    unfold argPart at ha
    rw [if_pos hA] at ha
    obtain ⟨c, hc, h⟩ := out_map_ok ha
    cases h
    have hc' : choiceText w xs = .ok c := by
      unfold argString at hc
      rw [hxs] at hc
      rcases hact with h | h <;> rw [h] at hc <;> exact hc
    obtain ⟨b, hb, p, q, e'⟩ := choiceText_mem hc' hx
    exact ⟨b, hb, ⟨optionNames o ++ [32] ++ p, q ++ e, by rw [← e']; simp⟩⟩
  · intro v hv
    unfold envPart at he
    rw [hv] at he
    obtain ⟨n, hn, he⟩ := Out.bind_eq_ok.1 he
    obtain ⟨b, hb, he⟩ := Out.bind_eq_ok.1 he
    cases he
    exact ⟨n, hn, ⟨optionNames o ++ a ++ ((if o.short > 0 ∨ o.long ≠ [] then [10, 9] else []) ++ [101, 110, 118, 58, 32]), b, by simp⟩⟩
  · intro v hv hp
    have : (fun t => defaultWord ++ t ++ [41]) <$> jsonOf w v = .ok f := by
      unfold defaultPart at hf
      rw [hv] at hf
      cases v <;> first | exact hf | exact hp.elim
    obtain ⟨j, hj, e⟩ := out_map_ok this
    exact ⟨j, by rw [← JsonEmit.serialize_body]; exact hj, e.symm⟩
  · intro hv
    unfold defaultPart at hf
    rw [hv] at hf
    cases hf
    rfl

/-! ## The usage -/

/-- A usage is written in one way only. -/
theorem tokens_injective {f g : UsageForm} (h : f.tokens = g.tokens) : f = g := by
  have key : ∀ (f g : UsageForm) (x y : List Use), (∀ u ∈ x.head?, u = .closed) → (∀ u ∈ y.head?, u = .closed) → f.tokens ++ x = g.tokens ++ y → f = g ∧ x = y := by
    intro f
    induction f with
    | done =>
      intro g x y hx hy h
      cases g with
      | done => exact ⟨rfl, h⟩
      | word r => rw [show x = _ from h] at hx; cases hx .word rfl
      | more r => rw [show x = _ from h] at hx; cases hx .more rfl
      | maybe i r => rw [show x = _ from h] at hx; cases hx .opened rfl
    | word r ih =>
      intro g x y hx hy h
      cases g with
      | done => rw [← show _ = y from h] at hy; cases hy .word rfl
      | word r' =>
        simp only [UsageForm.tokens, List.cons_append, List.cons.injEq, true_and] at h
        obtain ⟨rfl, rfl⟩ := ih r' x y hx hy h
        exact ⟨rfl, rfl⟩
      | more r' => simp [UsageForm.tokens] at h
      | maybe i r' => simp [UsageForm.tokens] at h
    | more r ih =>
      intro g x y hx hy h
      cases g with
      | done => rw [← show _ = y from h] at hy; cases hy .more rfl
      | word r' => simp [UsageForm.tokens] at h
      | more r' =>
        simp only [UsageForm.tokens, List.cons_append, List.cons.injEq, true_and] at h
        obtain ⟨rfl, rfl⟩ := ih r' x y hx hy h
        exact ⟨rfl, rfl⟩
      | maybe i r' => simp [UsageForm.tokens] at h
    | maybe i r ih1 ih2 =>
      intro g x y hx hy h
      cases g with
      | done => rw [← show _ = y from h] at hy; cases hy .opened rfl
      | word r' => simp [UsageForm.tokens] at h
      | more r' => simp [UsageForm.tokens] at h
      | maybe i' r' =>
        simp only [UsageForm.tokens, List.cons_append, List.append_assoc, List.cons.injEq, true_and] at h
        obtain ⟨rfl, h2⟩ := ih1 i' _ _ (by simp) (by simp) h
        obtain ⟨rfl, rfl⟩ := ih2 r' x y hx hy (List.cons.inj h2).2
        exact ⟨rfl, rfl⟩
  exact (key f g [] [] (by simp) (by simp) (by rw [h])).1

/-- Words in front. -/
def UsageForm.words : Nat → UsageForm → UsageForm
  | 0, f => f
  | n + 1, f => .word (f.words n)

/-- Brackets in each other. -/
def UsageForm.nested : Nat → UsageForm
  | 0 => .done
  | n + 1 => .maybe (nested n) .done

theorem words_tokens (n : Nat) (f : UsageForm) : (f.words n).tokens = List.replicate n .word ++ f.tokens := by
  induction n with
  | zero => rfl
  | succ n ih => simp [UsageForm.words, UsageForm.tokens, ih, List.replicate_succ]

theorem words_allows (m : Nat) (f : UsageForm) (n : Nat) : (f.words m).allows n ↔ ∃ k, n = m + k ∧ f.allows k := by
  induction m generalizing n with
  | zero => simp [UsageForm.words]
  | succ m ih =>
    simp only [UsageForm.words, UsageForm.allows, ih]
    constructor
    · rintro ⟨k, rfl, j, rfl, h⟩; exact ⟨j, by omega, h⟩
    · rintro ⟨k, rfl, h⟩; exact ⟨m + k, by omega, k, rfl, h⟩

theorem nested_tokens (n : Nat) : (UsageForm.nested n).tokens = List.replicate n .opened ++ List.replicate n .closed := by
  induction n with
  | zero => rfl
  | succ n ih =>
    simp only [UsageForm.nested, UsageForm.tokens, ih]
    rw [List.append_assoc, ← List.replicate_succ', List.replicate_succ (n := n) (a := Use.opened), List.cons_append]

theorem nested_allows (m n : Nat) : (UsageForm.nested m).allows n ↔ n ≤ m := by
  induction m generalizing n with
  | zero => simp [UsageForm.nested, UsageForm.allows]
  | succ m ih =>
    simp only [UsageForm.nested, UsageForm.allows, ih]
    constructor
    · rintro (h | ⟨a, b, rfl, h1, h2⟩) <;> omega
    · intro h
      cases n with
      | zero => exact .inl rfl
      | succ n => exact .inr ⟨n, 0, by omega, by omega, rfl⟩

/-- **C106**: the usage of an argument allows the numbers of words from `minArgs` to `maxArgs`, or without end if `maxArgs` is 0. -/
theorem usage_allows {m n : Nat} (h : n = 0 ∨ m ≤ n) :
    ∃ f : UsageForm, f.tokens = Args.usage m n ∧ ∀ k, f.allows k ↔ m ≤ k ∧ (n = 0 ∨ k ≤ n) := by
  unfold Args.usage
  by_cases h0 : m = 0 ∧ n = 0
  · obtain ⟨rfl, rfl⟩ := h0
    refine ⟨.maybe (.maybe (.more .done) .done) .done, rfl, fun k => ?_⟩
    simp only [UsageForm.allows, Nat.zero_le, true_or, and_self, iff_true]
    cases k with
    | zero => exact .inl rfl
    | succ k =>
      refine .inr ⟨k, 0, by omega, ?_, rfl⟩
      cases k with
      | zero => exact .inl rfl
      | succ k => exact .inr ⟨k, 0, by omega, ⟨k, 0, rfl, rfl⟩, rfl⟩
  · rw [if_neg h0]
    by_cases h1 : n > m
    · rw [if_pos h1]
      refine ⟨(UsageForm.nested (n - m)).words m, by rw [words_tokens, nested_tokens], fun k => ?_⟩
      simp only [words_allows, nested_allows]
      constructor
      · rintro ⟨j, rfl, hj⟩; omega
      · intro hk; exact ⟨k - m, by omega, by omega⟩
    · rw [if_neg h1]
      by_cases h2 : n < m
      · rw [if_pos h2]
        refine ⟨UsageForm.words m (.maybe (.more .done) .done), by rw [words_tokens]; rfl, fun k => ?_⟩
        simp only [words_allows, UsageForm.allows]
        constructor
        · rintro ⟨j, rfl, hj⟩; omega
        · intro hk
          refine ⟨k - m, by omega, ?_⟩
          cases hk' : k - m with
          | zero => exact .inl rfl
          | succ j => exact .inr ⟨j, 0, by omega, ⟨j, 0, rfl, rfl⟩, rfl⟩
      · rw [if_neg h2]
        refine ⟨UsageForm.words m .done, by rw [words_tokens]; rfl, fun k => ?_⟩
        simp only [words_allows, UsageForm.allows]
        constructor
        · rintro ⟨j, rfl, hj⟩; omega
        · intro hk; exact ⟨0, by omega, rfl⟩

/-! ## The help is always there -/

theorem plain_asString {v : Val} (h : IsPlain v) : ∃ t, Build.asString w.fo.fltText v = .ok t := by
  cases v with
  | bool b => cases b <;> exact ⟨_, rfl⟩
  | list _ => exact h.elim
  | map _ => exact h.elim
  | blob _ => exact h.elim
  | _ => exact ⟨_, rfl⟩

theorem isText_asString {v : Val} (h : IsText v) : ∃ t, Build.asString w.fo.fltText v = .ok t := by
  obtain ⟨t, rfl⟩ := h; exact ⟨t, rfl⟩

theorem choiceText_ok {xs : List Val} (h : ∀ x ∈ xs, IsPlain x) : ∃ t, choiceText w xs = .ok t := by
  induction xs with
  | nil => exact ⟨[], rfl⟩
  | cons v vs ih =>
    obtain ⟨a, ha⟩ := plain_asString (w := w) (h v List.mem_cons_self)
    cases vs with
    | nil => exact ⟨a, ha⟩
    | cons u vs =>
      obtain ⟨r, hr⟩ := ih fun x hx => h x (List.mem_cons_of_mem _ hx)
      exact ⟨_, by unfold choiceText; rw [ha, hr]; rfl⟩

theorem argString_ok {c : Config} (h : Neat HelpForm c) : ∃ t, argString w c = .ok t := by
  have hv : ∃ t, valueWord w c = .ok t := by
    unfold valueWord
    split
    · exact ⟨_, rfl⟩
    · unfold textOr
      split
      · exact ⟨_, rfl⟩
      · rename_i v hv
        exact isText_asString ((h kTitle v (by exact hv)).1 (.inl rfl))
  have hval : ∃ t, (match optGet c kEnum with
    | some (.list xs) => choiceText w xs
    | _ => valueWord w c) = .ok t := by
    split
    · rename_i xs hx
      exact choiceText_ok ((h kEnum _ hx).2.2.1 rfl xs rfl)
    · exact hv
  unfold argString
  cases c.action <;> first | exact hval | exact ⟨_, rfl⟩

theorem argPart_ok {c : Config} (h : Neat HelpForm c) (lead : Bytes) : ∃ t, argPart w c lead = .ok t := by
  unfold argPart
  split
  · obtain ⟨t, ht⟩ := argString_ok (w := w) h
    exact ⟨_, by rw [ht]; rfl⟩
  · exact ⟨_, rfl⟩

theorem helpLine_ok {o : Opt} (h : Neat HelpForm o.cfg) (ht : Told w o) (adv : Bool) : ∃ t, helpLine w adv o = .ok t := by
  unfold helpLine
  split
  · exact ⟨_, rfl⟩
  · obtain ⟨a, ha⟩ := argPart_ok (w := w) h [32]
    have he : ∃ e, envPart w o = .ok e := by
      unfold envPart
      split
      · exact ⟨_, rfl⟩
      · rename_i v hv
        obtain ⟨n, hn⟩ := isText_asString (w := w) ((h kEnv v hv).1 (.inr rfl))
        obtain ⟨b, hb⟩ := argPart_ok (w := w) h [61]
        exact ⟨_, by rw [hn, hb]; rfl⟩
    have hd : ∃ d, textPart w o.cfg = .ok d := by
      obtain ⟨_, m, hm, _, _, v, t, h1, h2⟩ := ht
      refine ⟨t, ?_⟩
      unfold textPart
      have : optGet o.cfg kDescription = some v := by unfold optGet; rw [hm]; exact h1
      rw [this]; exact h2
    have hf : ∃ f, defaultPart w o.cfg = .ok f := by
      unfold defaultPart
      split
      · exact ⟨_, rfl⟩
      · exact ⟨_, rfl⟩
      · exact ⟨_, rfl⟩
      · rename_i v h1 h2 hv
        have hb := (h kDefault v hv).2.2.2 rfl
        unfold jsonOf
        rw [JsonEmit.serialize_body]
        cases v with
        | list xs => exact ⟨[], absurd rfl (h1 xs)⟩
        | map m => exact ⟨[], absurd rfl (h2 m)⟩
        | blob b => exact absurd rfl (hb b)
        | bool b => cases b <;> exact ⟨_, rfl⟩
        | flt b =>
          simp only [JsonEmit.body, JsonEmit.scalarText]
          split <;> exact ⟨_, rfl⟩
        | _ => exact ⟨_, rfl⟩
    obtain ⟨e, he⟩ := he
    obtain ⟨d, hd⟩ := hd
    obtain ⟨f, hf⟩ := hf
    exact ⟨_, by rw [ha, he, hd, hf]; rfl⟩

theorem setting_ok {c : Config} (h : Neat HelpForm c) {k : Bytes} (hk : k = kMinArgs ∨ k = kMaxArgs) : ∃ n, setting w c k = .ok n := by
  unfold setting
  split
  · exact ⟨_, rfl⟩
  · rename_i v hv
    rcases (h k v hv).2.1 hk with ⟨n, rfl⟩ | ⟨n, rfl⟩ <;> exact ⟨_, rfl⟩

theorem usagePart_ok {c : Config} (h : Neat HelpForm c) : ∃ t, usagePart w c = .ok t := by
  obtain ⟨m, hm⟩ := setting_ok (w := w) h (.inl rfl)
  obtain ⟨n, hn⟩ := setting_ok (w := w) h (.inr rfl)
  obtain ⟨a, ha⟩ := argString_ok (w := w) h
  exact ⟨_, by unfold usagePart; rw [hm, hn, ha]; rfl⟩

theorem renderAll_ok {ps : List Piece} (h : ∀ p ∈ ps, ∃ t, p.render w = .ok t) : ∃ t, renderAll w ps = .ok t := by
  induction ps with
  | nil => exact ⟨[], rfl⟩
  | cons p ps ih =>
    obtain ⟨a, ha⟩ := h p List.mem_cons_self
    obtain ⟨r, hr⟩ := ih fun p hp => h p (List.mem_cons_of_mem _ hp)
    exact ⟨_, by unfold renderAll; rw [ha, hr]; rfl⟩

/-- The pieces of the help. -/
theorem mem_layout {P : Parser} {adv : Bool} {as_ os : List Opt} {p : Piece} (h : p ∈ layout P adv as_ os) :
    (∃ t, p = .text t) ∨ (∃ o ∈ as_, p = .usage o) ∨ ∃ o, (o ∈ as_ ∨ o ∈ os) ∧ p = .entry o := by
  have hif : ∀ l : List Opt, (∀ o ∈ l, o ∈ os) → p ∈ entriesIf adv l → ∃ o, (o ∈ as_ ∨ o ∈ os) ∧ p = .entry o := by
    intro l hl hp
    obtain ⟨o, ho, rfl⟩ := List.mem_map.1 hp
    exact ⟨o, .inr (hl o ((List.mem_filter.1 ho).1)), rfl⟩
  unfold layout at h
  simp only [List.mem_append, List.mem_singleton, or_assoc] at h
  rcases h with h | h | h | h | h | h | h | h
  · exact .inl ⟨_, h⟩
  · obtain ⟨o, ho, rfl⟩ := List.mem_map.1 h; exact .inr (.inl ⟨o, ho, rfl⟩)
  · exact .inl ⟨_, h⟩
  · obtain ⟨o, ho, rfl⟩ := List.mem_map.1 h; exact .inr (.inr ⟨o, .inl ho, rfl⟩)
  · exact .inl ⟨_, h⟩
  · exact .inr (.inr (hif _ (fun o ho => (List.mem_filter.1 ho).1) h))
  · obtain ⟨e, _, he⟩ := List.mem_flatMap.1 h
    unfold groupPieces at he
    split at he
    · cases he
    · rcases List.mem_cons.1 he with he | he
      · exact .inl ⟨_, he⟩
      · exact .inr (.inr (hif _ (fun o ho => (List.mem_filter.1 ho).1) he))
  · exact .inl ⟨_, h⟩

theorem helpForm_text {k : Bytes} (h : k ≠ kMinArgs ∧ k ≠ kMaxArgs ∧ k ≠ kEnum ∧ k ≠ kDefault) (t : Bytes) : HelpForm k (.str t) :=
  ⟨fun _ => ⟨t, rfl⟩, fun e => (e.elim h.1 h.2.1).elim, fun e => absurd e h.2.2.1, fun e => absurd e h.2.2.2⟩

theorem helpForm_num {k : Bytes} (h : k ≠ kTitle ∧ k ≠ kEnv ∧ k ≠ kEnum ∧ k ≠ kDefault) {v : Val} (hv : (∃ n, v = .int n) ∨ ∃ n, v = .uint n) : HelpForm k v :=
  ⟨fun e => (e.elim h.1 h.2.1).elim, fun _ => hv, fun e => absurd e h.2.2.1, fun e => absurd e h.2.2.2⟩

theorem helpForm_other {k : Bytes} (h : k ∉ [kTitle, kEnv, kMinArgs, kMaxArgs, kEnum, kDefault]) (v : Val) : HelpForm k v := by
  simp only [List.mem_cons, List.not_mem_nil, or_false, not_or] at h
  exact ⟨fun e => (e.elim h.1 h.2.1).elim, fun e => (e.elim h.2.2.1 h.2.2.2.1).elim, fun e => absurd e h.2.2.2.2.1, fun e => absurd e h.2.2.2.2.2⟩

theorem helpForm_enum {xs : List Val} (h : ∀ x ∈ xs, IsPlain x) : HelpForm kEnum (.list xs) :=
  ⟨fun e => by rcases e with e | e <;> exact absurd e (by decide), fun e => by rcases e with e | e <;> exact absurd e (by decide),
   fun _ ys e => by cases e; exact h, fun e => absurd e (by decide)⟩

theorem helpForm_default {v : Val} (h : ∀ b, v ≠ .blob b) : HelpForm kDefault v :=
  ⟨fun e => by rcases e with e | e <;> exact absurd e (by decide), fun e => by rcases e with e | e <;> exact absurd e (by decide),
   fun e => absurd e (by decide), fun _ => h⟩

theorem help_start : Start HelpForm :=
  ⟨helpForm_text (by decide), helpForm_text (by decide), helpForm_num (by decide) (.inl ⟨1, rfl⟩), helpForm_num (by decide) (.inl ⟨1, rfl⟩)⟩

theorem showable_fit (c : PCall) (h : c.showable) : c.fit w HelpForm False := by
  cases c with
  | addOption _ _ _ _ _ => exact nofun
  | set id f =>
    refine f.neat w.p ?_ fun v e => ?_
    · cases f with
      | title t => exact helpForm_text (by decide) t
      | help t => exact helpForm_text (by decide) t
      | env t => exact helpForm_text (by decide) t
      | pattern t => exact helpForm_text (by decide) t
      | minArgs n => exact helpForm_num (by decide) (.inr ⟨_, rfl⟩)
      | maxArgs n => exact helpForm_num (by decide) (.inr ⟨_, rfl⟩)
      | numArgs n => exact ⟨helpForm_num (by decide) (.inr ⟨_, rfl⟩), helpForm_num (by decide) (.inr ⟨_, rfl⟩)⟩
      | minimum v => exact fun _ => helpForm_other (by decide) v
      | maximum v => exact fun _ => helpForm_other (by decide) v
      | const v => exact helpForm_other (by decide) v
      | maxLength n => exact helpForm_other (by decide) _
      | minLength n => exact helpForm_other (by decide) _
      | default v => exact helpForm_default h
      | setChoices vs => exact helpForm_enum h
      | _ => trivial
    · subst e
      refine ⟨helpForm_enum fun x hx => ?_, fun xs hxs _ => helpForm_enum fun x hx => ?_⟩
      · simp only [List.mem_cons, List.not_mem_nil, or_false] at hx; subst hx; exact h
      · rcases List.mem_append.1 hx with hx | hx
        · exact hxs.2.2.1 rfl xs rfl x hx
        · simp only [List.mem_cons, List.not_mem_nil, or_false] at hx; subst hx; exact h
  | merge d => exact ⟨fun e he => ⟨h.1 e he, fun x hx => (h.1 e he kEnv x hx).1 (.inr rfl), nofun⟩, h.2⟩
  | _ => trivial

theorem help_ok_of {P : Parser} (hs : Sound w P.st) (hg : Grouped P.st) (ht : ∀ i o, P.st.entry i = some o → Neat HelpForm o.cfg) (adv : Bool) :
    ∃ t, helpText w P adv = .ok t := by
  obtain ⟨as_, h1, h2⟩ := entriesOf_ok (s := P.st) (is := P.st.reg.arguments) fun i hi => hs.reg.known i (List.mem_append_right _ hi)
  obtain ⟨os, h3, h4⟩ := entriesOf_ok (s := P.st) (is := P.st.reg.options) fun i hi => hs.reg.known i (List.mem_append_left _ hi)
  rw [help_is_layout hs.names hg h1 h3]
  have hm : ∀ o, o ∈ as_ ∨ o ∈ os → ∃ i, P.st.entry i = some o := fun o ho => 
    ho.elim (fun h => (entriesOf_mem h1 o h).imp fun _ h => h.2) fun h => (entriesOf_mem h3 o h).imp fun _ h => h.2
  refine renderAll_ok fun p hp => ?_
  rcases mem_layout hp with ⟨t, rfl⟩ | ⟨o, ho, rfl⟩ | ⟨o, ho, rfl⟩
  · exact ⟨t, rfl⟩
  · obtain ⟨i, hi⟩ := hm o (.inl ho)
    exact usagePart_ok (ht i o hi)
  · obtain ⟨i, hi⟩ := hm o ho
    exact helpLine_ok (ht i o hi) (hs.told i o hi) true

/-- **C106**: the help of a parser is printed to the end, if choices are plain, no default is a blob and merged descriptions have
the right form. -/
theorem help_is_printed {title : Bytes} {help : Bool} {cs : List PCall} (hc : ∀ c ∈ cs, PCall.proper c) (hsh : ∀ c ∈ cs, PCall.showable c) {P : Parser}
    (hb : build w (newParser title help) cs = some P) (adv : Bool) : ∃ t, helpText w P adv = .ok t := by
  obtain ⟨h1, h2⟩ := build_tidy (w := w) (N := False) help_start cs (P := newParser title help) (sound_init w help) (tidy_init help)
    (fun c hcs => ⟨hc c hcs, showable_fit c (hsh c hcs)⟩) hb
  exact help_ok_of h1 (build_grouped cs (P := newParser title help) nofun hb) h2.forms adv

end Verif.Args
