import Verif.Args.RegProps
/-!
# The names of options in messages (src/ArgParse.cc 244-262)

`OptName` says in messages which option or argument is meant.
-/

namespace Verif.Args
open Verif

/-! ## The model -/

/-- A byte as `operator<<(ostream&, char)` writes it. -/
def charByte (c : Int8) : UInt8 := c.toUInt8

/-- `OptName` (src/ArgParse.cc 244-262) of an entry with this long option, short option and title; `arg` is whether its argument is meant.
Simplified: the title is its text (`AsString`). -/
def optName (long : Bytes) (short : Int32) (title : Bytes) (arg : Bool) : Bytes :=
  if long ≠ [] then "option --".toUTF8.toList ++ (long ++ if arg then " argument".toUTF8.toList else [])
  else if short ≠ 0 then "option -".toUTF8.toList ++ ([charByte (toChar short)] ++ if arg then " argument".toUTF8.toList else [])
  else "argument ".toUTF8.toList ++ title

/-- The message for a required entry that is not there (src/ArgParse.cc 1670-1674). -/
def missingText (name : Bytes) : Bytes :=
  "Error parsing arguments\nRequired ".toUTF8.toList ++ (name ++ " missing.".toUTF8.toList)

/-! ## The claim -/

/-- Specification: the two entries are called the same on the command line: the same long option, or no long option and the same
character for a short option, or neither and the same title. -/
def SameName (l : Bytes) (s : Int32) (t : Bytes) (l' : Bytes) (s' : Int32) (t' : Bytes) : Prop :=
  (l ≠ [] ∧ l = l') ∨ (l = [] ∧ l' = [] ∧ s ≠ 0 ∧ s' ≠ 0 ∧ toChar s = toChar s') ∨ (l = [] ∧ l' = [] ∧ s = 0 ∧ s' = 0 ∧ t = t')

theorem optName_dash : "option --".toUTF8.toList = "option -".toUTF8.toList ++ [45] := by decide +kernel
theorem optName_head : "option -".toUTF8.toList = 111 :: "ption -".toUTF8.toList ∧ "argument ".toUTF8.toList = 97 :: "rgument ".toUTF8.toList := by
  decide +kernel

theorem optName_long {l : Bytes} (h : l ≠ []) (s : Int32) (t : Bytes) (f : Bool) :
    optName l s t f = "option --".toUTF8.toList ++ (l ++ if f then " argument".toUTF8.toList else []) := if_pos h

theorem optName_short {s : Int32} (h : s ≠ 0) (t : Bytes) (f : Bool) :
    optName [] s t f = "option -".toUTF8.toList ++ ([charByte (toChar s)] ++ if f then " argument".toUTF8.toList else []) := by
  unfold optName
  rw [if_neg (show ¬ (([] : Bytes) ≠ []) from fun e => e rfl), if_pos h]

theorem optName_title (t : Bytes) (f : Bool) : optName [] 0 t f = "argument ".toUTF8.toList ++ t := by
  unfold optName
  rw [if_neg (show ¬ (([] : Bytes) ≠ []) from fun e => e rfl), if_neg (show ¬ ((0 : Int32) ≠ 0) from fun e => e rfl)]

theorem optName_cross {c : UInt8} {m w : Bytes} (hm : m ≠ []) : [45] ++ (m ++ w) ≠ [c] ++ w := by
  intro h
  have h1 := congrArg List.length h
  have h2 := List.length_pos_iff.2 hm
  simp only [List.length_append, List.length_cons, List.length_nil] at h1
  omega

/-- C129.  Two entries have the same name in messages exactly if they are called the same on the command line. -/
theorem option_named (l l' t t' : Bytes) (s s' : Int32) (f : Bool) :
    optName l s t f = optName l' s' t' f ↔ SameName l s t l' s' t' := by
  obtain ⟨e1, e2⟩ := optName_head
  unfold SameName
  constructor
  · intro h
    by_cases h1 : l = [] <;> by_cases h2 : l' = []
    · subst h1 h2
      by_cases h3 : s = 0 <;> by_cases h4 : s' = 0
      · subst h3 h4
        rw [optName_title, optName_title] at h
        exact .inr (.inr ⟨rfl, rfl, rfl, rfl, List.append_cancel_left h⟩)
      · subst h3
        rw [optName_title, optName_short h4, e1, e2] at h
        cases h
      · subst h4
        rw [optName_title, optName_short h3, e1, e2] at h
        cases h
      · rw [optName_short h3, optName_short h4] at h
        have h5 := List.append_cancel_right (List.append_cancel_left h)
        have h6 : charByte (toChar s) = charByte (toChar s') := by simpa using h5
        exact .inr (.inl ⟨rfl, rfl, h3, h4, by
          have h7 := congrArg UInt8.toInt8 h6
          simpa [charByte] using h7⟩)
    · subst h1
      rw [optName_long h2, optName_dash] at h
      by_cases h3 : s = 0
      · subst h3
        rw [optName_title, e1, e2] at h
        cases h
      · rw [optName_short h3, List.append_assoc] at h
        exact absurd (List.append_cancel_left h).symm (optName_cross h2)
    · subst h2
      rw [optName_long h1, optName_dash] at h
      by_cases h3 : s' = 0
      · subst h3
        rw [optName_title, e1, e2] at h
        cases h
      · rw [optName_short h3, List.append_assoc] at h
        exact absurd (List.append_cancel_left h) (optName_cross h1)
    · rw [optName_long h1, optName_long h2] at h
      exact .inl ⟨h1, List.append_cancel_right (List.append_cancel_left h)⟩
  · rintro (⟨h1, rfl⟩ | ⟨rfl, rfl, h1, h2, h3⟩ | ⟨rfl, rfl, rfl, rfl, rfl⟩)
    · rw [optName_long h1, optName_long h1]
    · rw [optName_short h1, optName_short h2, h3]
    · rw [optName_title]

/-- C129.  The message for a required entry that is missing tells its name. -/
theorem missing_named {n n' : Bytes} (h : missingText n = missingText n') : n = n' :=
  List.append_cancel_right (List.append_cancel_left h)

/-- Specification: the entry is an option one can give: it has a long option or a short option, which is a positive number. -/
def Opt.Callable (o : Opt) : Prop := o.long ≠ [] ∨ o.short > 0

/-- The title of an entry. -/
def Opt.titleText (o : Opt) : Bytes :=
  match o.cfg.opt with
  | .map m => match AMap.get m kTitle with
    | some (.str t) => t
    | _ => []
  | _ => []

/-- The name of an entry in messages (src/ArgParse.cc 244-262).  Simplified: a title that is no text is taken to be empty. -/
def Opt.name (o : Opt) (arg : Bool) : Bytes := optName o.long o.short o.titleText arg

/-- C129.  After any registrations, failed ones included, no two options one can give have the same name in messages, and none has the name
of a positional argument.  Missing: short options above 255, and options with neither a long option nor a positive short one
(`named_alike_false`). -/
theorem registered_named_partial (cs : List Call) (hc : ∀ c ∈ cs, c.charShort) {s : Reg} (h : calls .init cs = some s)
    {i j : Nat} (hij : i ≠ j) {a b : Opt} (ha : (entries s)[i]? = some (some a)) (hb : (entries s)[j]? = some (some b))
    (ca : a.Callable) (cb : b.Callable ∨ (b.long = [] ∧ b.short = 0)) (f : Bool) : a.name f ≠ b.name f := by
  obtain ⟨_, h2, h3⟩ := (registrations_apart_partial cs hc h).2 i j hij a b ha hb
  intro e
  have pos : ∀ o : Opt, o.long = [] → o.Callable → o.short > 0 := fun o h1 h => h.resolve_left fun h => h h1
  rcases (option_named _ _ _ _ _ _ _).1 e with ⟨g1, g2⟩ | ⟨g1, g2, g3, g4, g5⟩ | ⟨g1, g2, g3, g4, g5⟩
  · exact h2 g1 g2
  · rcases cb with cb | ⟨_, cb⟩
    · exact h3 (pos a g1 ca) (pos b g2 cb) g5
    · exact g4 cb
  · have := pos a g1 ca
    rw [g3] at this
    exact absurd this (by decide)

/-- The names of all the entries. -/
def names (s : Reg) : List Bytes := (entries s).filterMap fun o => o.map (·.name false)

/-- C129 is false of negative short options: they are accepted although nobody can give them, and two of them have the same name, which
ends in a byte that is no character. -/
theorem named_alike_false : (calls .init [.addOption [97] (-1) [] [] .store, .addOption [98] (-1) [] [] .store]).map names =
    some ["option -".toUTF8.toList ++ [255], "option -".toUTF8.toList ++ [255]] := by decide +kernel

/-! ## Cases -/

example : missingText (optName "out".toUTF8.toList 111 [] true) =
    "Error parsing arguments\nRequired option --out argument missing.".toUTF8.toList := by decide +kernel
example : optName [] 0 "FILE".toUTF8.toList true = "argument FILE".toUTF8.toList := by decide +kernel
/-- The short option `-` with its argument is not taken for a long option. -/
example : optName [] 45 [] true ≠ optName " ".toUTF8.toList 0 [] true := fun h => by
  rcases (option_named _ _ _ _ _ _ _).1 h with ⟨h, _⟩ | ⟨_, h, _⟩ | ⟨_, h, _⟩
  · exact h rfl
  · revert h; decide +kernel
  · revert h; decide +kernel

/-- Three entries with three names. -/
example : (calls .init [.addOption [97] 111 "out".toUTF8.toList [] .store, .addOption [98] 98 [] [] .store, .addArgument [99] [] .store]).map names =
    some ["option --out".toUTF8.toList, "option -b".toUTF8.toList, "argument c".toUTF8.toList] := by decide +kernel

/-! ## Messages about limits -/

/-- The limits whose violation is reported with two numbers (src/ArgParse.cc 1396-1408, 1435-1450, 1650-1666). -/
inductive Limit where
  | tooShort | tooLong | tooSmall | tooLarge | tooMany | tooFew
  deriving DecidableEq

/-- The text before the name. -/
def Limit.pre : Limit → Bytes
  | .tooMany => "Error parsing arguments\nMore than maximum arguments specified for ".toUTF8.toList
  | .tooFew => "Error parsing arguments\nLess than minimum arguments specified for ".toUTF8.toList
  | _ => "Error parsing arguments\n".toUTF8.toList

/-- The text between the name and what was given. -/
def Limit.mid : Limit → Bytes
  | .tooShort => " is too short: ".toUTF8.toList
  | .tooLong => " is too long: ".toUTF8.toList
  | .tooSmall => " is too small: ".toUTF8.toList
  | .tooLarge => " is too large: ".toUTF8.toList
  | .tooMany | .tooFew => ", ".toUTF8.toList

/-- The text between what was given and the limit. -/
def Limit.post : Limit → Bytes
  | .tooShort => " chars, minimum ".toUTF8.toList
  | .tooLong => " chars, maximum ".toUTF8.toList
  | .tooSmall => ", minimum ".toUTF8.toList
  | .tooLarge => ", maximum ".toUTF8.toList
  | .tooMany => " options, maximum: ".toUTF8.toList
  | .tooFew => " options, minimum: ".toUTF8.toList

/-- The message about a limit (src/ArgParse.cc 1396-1408, 1435-1450, 1650-1666).  Simplified: the numbers are given as the texts that
`operator<<` and `SerializeJSON` write for them. -/
def limitText (k : Limit) (name given limit : Bytes) : Bytes := k.pre ++ name ++ k.mid ++ given ++ k.post ++ limit

/-- The characters of numbers: digits, signs, points and the `e` of exponents. -/
def numChar (c : UInt8) : Bool := (48 ≤ c && c ≤ 57) || c == 43 || c == 45 || c == 46 || c == 101

/-- Specification: a text of such characters. -/
def NumText (t : Bytes) : Prop := ∀ c ∈ t, numChar c = true

/-- What comes before the number a text ends with, backwards. -/
theorem drop_number {x t : Bytes} (ht : NumText t) : (x ++ [32] ++ t).reverse.dropWhile numChar = (x ++ [32]).reverse := by
  rw [List.reverse_append, List.dropWhile_append_of_pos (fun c hc => ht c (List.mem_reverse.1 hc))]
  simp [numChar]

theorem number_last {x x' t t' : Bytes} (ht : NumText t) (ht' : NumText t') (h : x ++ [32] ++ t = x' ++ [32] ++ t') : x = x' ∧ t = t' := by
  have h1 := drop_number (x := x) ht
  rw [h, drop_number ht'] at h1
  have h2 : x' ++ [32] = x ++ [32] := List.reverse_inj.1 h1
  rw [h2] at h
  exact ⟨(List.append_cancel_right h2).symm, List.append_cancel_left h⟩

theorem Limit.mid_blank (k : Limit) : k.mid = k.mid.dropLast ++ [32] := by cases k <;> decide +kernel
theorem Limit.post_blank (k : Limit) : k.post = k.post.dropLast ++ [32] := by cases k <;> decide +kernel

/-- A text that ends in a number or a blank does not end in `s`. -/
theorem not_s {x t y : Bytes} (ht : NumText t) : x ++ [32] ++ t ≠ y ++ [115] := by
  intro h
  have h1 := congrArg List.getLast? h
  rw [List.getLast?_append, List.getLast?_append (l' := [115])] at h1
  cases hl : t.getLast? with
  | none => rw [hl] at h1; simp at h1
  | some c =>
    rw [hl] at h1
    have h2 := ht c (List.mem_of_getLast? hl)
    simp at h1
    subst h1
    revert h2
    decide

theorem post_apart {k k' : Limit} {x x' t t' : Bytes} (ht : NumText t) (ht' : NumText t') (h : x ++ [32] ++ t ++ k.post = x' ++ [32] ++ t' ++ k'.post) :
    k = k' := by
  have e1 : Limit.post .tooShort = " char".toUTF8.toList ++ [115] ++ Limit.post .tooSmall := by decide +kernel
  have e2 : Limit.post .tooLong = " char".toUTF8.toList ++ [115] ++ Limit.post .tooLarge := by decide +kernel
  have s1 : ∀ {x t x' t' : Bytes} {p q : Bytes}, NumText t' → p = " char".toUTF8.toList ++ [115] ++ q → x ++ [32] ++ t ++ p ≠ x' ++ [32] ++ t' ++ q := by
    intro x t x' t' p q ht' e h
    rw [e, ← List.append_assoc] at h
    have h1 := List.append_cancel_right h
    rw [← List.append_assoc] at h1
    exact not_s ht' h1.symm
  have len : ∀ {a b p q : Bytes}, a ++ p = b ++ q → p.length ≥ 10 → q.length ≥ 10 →
      p.reverse.take 10 = q.reverse.take 10 := by
    intro a b p q h hp hq
    have h1 := congrArg (fun l => l.reverse.take 10) h
    simp only [List.reverse_append] at h1
    rwa [List.take_append_of_le_length (by simpa using hp), List.take_append_of_le_length (by simpa using hq)] at h1
  have h10 : ∀ k : Limit, k.post.length ≥ 10 := by intro k; cases k <;> decide +kernel
  have hk := len h (h10 k) (h10 k')
  cases k <;> cases k' <;> first
    | rfl
    | exact absurd h (s1 ht' e1)
    | exact absurd h (s1 ht' e2)
    | exact absurd h.symm (s1 ht e1)
    | exact absurd h.symm (s1 ht e2)
    | exact absurd hk (by decide +kernel)

/-- C129.  The message about a limit tells which limit it is, the name of the option or argument, what was given and the limit. -/
theorem limit_named {k k' : Limit} {n n' a a' b b' : Bytes} (ha : NumText a) (ha' : NumText a') (hb : NumText b) (hb' : NumText b')
    (h : limitText k n a b = limitText k' n' a' b') : k = k' ∧ n = n' ∧ a = a' ∧ b = b' := by
  unfold limitText at h
  rw [k.post_blank, k'.post_blank, ← List.append_assoc, ← List.append_assoc] at h
  obtain ⟨h1, rfl⟩ := number_last hb hb' h
  have h2 := congrArg (· ++ ([32] : Bytes)) h1
  simp only [List.append_assoc, ← Limit.post_blank] at h2
  have h3 : (k.pre ++ n ++ k.mid.dropLast) ++ [32] ++ a ++ k.post = (k'.pre ++ n' ++ k'.mid.dropLast) ++ [32] ++ a' ++ k'.post := by
    rw [List.append_assoc (k.pre ++ n), ← k.mid_blank, List.append_assoc (k'.pre ++ n'), ← k'.mid_blank]
    simpa only [List.append_assoc] using h2
  obtain rfl := post_apart ha ha' h3
  obtain ⟨h4, rfl⟩ := number_last ha ha' (List.append_cancel_right h3)
  exact ⟨rfl, List.append_cancel_left (List.append_cancel_right h4), rfl, rfl⟩

theorem numText_natDec (n : Nat) : NumText (natDec n) := fun c hc => by
  have h := natDec_all_digits n c hc
  unfold isDigit at h
  unfold numChar
  rw [h]
  rfl

/-- C129.  The message about a length or a number of arguments tells both numbers. -/
theorem limit_counts {k k' : Limit} {n n' : Bytes} {given given' limit limit' : Nat}
    (h : limitText k n (natDec given) (natDec limit) = limitText k' n' (natDec given') (natDec limit')) :
    k = k' ∧ n = n' ∧ given = given' ∧ limit = limit' := by
  obtain ⟨h1, h2, h3, h4⟩ := limit_named (numText_natDec _) (numText_natDec _) (numText_natDec _) (numText_natDec _) h
  have h5 := congrArg (decVal 0) h3
  have h6 := congrArg (decVal 0) h4
  rw [decVal_natDec_acc, decVal_natDec_acc] at h5 h6
  exact ⟨h1, h2, h5, h6⟩

example : limitText .tooSmall (optName "level".toUTF8.toList 0 [] true) "-1".toUTF8.toList "0".toUTF8.toList =
    "Error parsing arguments\noption --level argument is too small: -1, minimum 0".toUTF8.toList ∧ (∀ c ∈ "-1.5e+10".toUTF8.toList, numChar c = true) := by
  decide +kernel
example : limitText .tooMany (optName [] 0 "FILE".toUTF8.toList true) "3".toUTF8.toList "2".toUTF8.toList =
    "Error parsing arguments\nMore than maximum arguments specified for argument FILE, 3 options, maximum: 2".toUTF8.toList := by decide +kernel

end Verif.Args
