import Verif.Dispatch.Model
/-!
# C116: a serialization type means the same format for writing and for reading
-/

namespace Verif.Dispatch

/-- Specification: what the types stand for. -/
def meaning : List (Ty × Fmt) := [(1, .json), (2, .yaml), (3, .xml), (4, .bundle), (255, .msgpack)]

/-- Specification: what is there. -/
def Build.has (b : Build) : Fmt → Bool
  | .json => true
  | .yaml => b.yaml
  | .xml => b.xml
  | .bundle => true
  | .msgpack => b.msgpack

/-- C116.  An emitter is created exactly for the types that stand for a format that is there, and is the one for it; otherwise an exception
is thrown. -/
theorem emitter_format (b : Build) (t : Ty) :
    (∀ f, createEmitter b t = .ok f ↔ (t, f) ∈ meaning ∧ b.has f = true) ∧
    ((∃ f, createEmitter b t = .ok f) ∨ createEmitter b t = .throw .runtime) := by
  have m : ∀ f, (t, f) ∈ meaning ↔ (t = 1 ∧ f = .json) ∨ (t = 2 ∧ f = .yaml) ∨ (t = 3 ∧ f = .xml) ∨ (t = 4 ∧ f = .bundle) ∨ (t = 255 ∧ f = .msgpack) := by
    intro f; simp [meaning]
  constructor
  · intro f
    rw [m]
    unfold createEmitter
    by_cases h1 : t = JSON
    · subst h1; cases f <;> simp [JSON, Build.has]
    by_cases h3 : t = XMLPLIST
    · subst h3; cases f <;> cases hb : b.xml <;> simp [JSON, XMLPLIST, Build.has, mkXml, hb]
    by_cases h4 : t = BUNDLEHDR
    · subst h4; cases f <;> simp [JSON, XMLPLIST, BUNDLEHDR, Build.has]
    by_cases h2 : t = YAML
    · subst h2; cases f <;> cases hb : b.yaml <;> simp [JSON, XMLPLIST, BUNDLEHDR, YAML, Build.has, mkYaml, hb]
    by_cases h5 : t = MSGPACK
    · subst h5; cases f <;> cases hb : b.msgpack <;> simp [JSON, XMLPLIST, BUNDLEHDR, YAML, MSGPACK, Build.has, mkMsgPack, hb]
    rw [if_neg h1, if_neg h3, if_neg h4, if_neg h2, if_neg h5]
    simp only [JSON, YAML, XMLPLIST, BUNDLEHDR, MSGPACK] at h1 h2 h3 h4 h5
    simp [h1, h2, h3, h4, h5]
  · unfold createEmitter mkXml mkYaml mkMsgPack
    repeat' split
    all_goals first
      | exact .inl ⟨_, rfl⟩
      | exact .inr rfl

/-- C116.  Creating a parser always comes to an end, after one guess at most. -/
theorem parser_ends (b : Build) (first : Begin) (t : Ty) (fuel : Nat) :
    ∃ r, createParser b first 2 t = some r ∧ createParser b first (fuel + 2) t = some r := by
  have one : ∀ (t : Ty) (fuel : Nat), t ≠ GUESS → createParser b first (fuel + 1) t = createParser b first 1 t ∧ ∃ r, createParser b first 1 t = some r := by
    intro t fuel h
    simp only [createParser, if_neg h]
    refine ⟨trivial, ?_⟩
    by_cases h3 : t = XMLPLIST
    · exact ⟨_, by rw [if_pos h3]⟩
    by_cases h1 : t = JSON
    · exact ⟨_, by rw [if_neg h3, if_pos h1]⟩
    by_cases h4 : t = BUNDLEHDR
    · exact ⟨_, by rw [if_neg h3, if_neg h1, if_pos h4]⟩
    by_cases h5 : t = MSGPACK
    · exact ⟨_, by rw [if_neg h3, if_neg h1, if_neg h4, if_pos h5]⟩
    exact ⟨_, by rw [if_neg h3, if_neg h1, if_neg h4, if_neg h5]⟩
  by_cases h : t = GUESS
  · subst h
    have g : ∀ t', guessFormat b first = .ok t' → t' ≠ GUESS := by
      intro t' h
      cases first <;> simp only [guessFormat] at h <;> (repeat' split at h) <;> cases h <;> decide
    have e : ∀ fuel, createParser b first (fuel + 1) GUESS = match guessFormat b first with
        | .ok t => createParser b first fuel t
        | .throw e => some (.throw e)
        | .ub => some .ub := fun fuel => rfl
    rw [e, e]
    cases hg : guessFormat b first with
    | ok t' =>
      obtain ⟨h1, r, h2⟩ := one t' fuel (g t' hg)
      exact ⟨r, h2, by rw [← h2]; exact h1⟩
    | throw e => exact ⟨_, rfl, rfl⟩
    | ub => exact ⟨_, rfl, rfl⟩
  · obtain ⟨h1, r, h2⟩ := one t (fuel + 1) h
    obtain ⟨h3, -⟩ := one t 1 h
    exact ⟨r, by rw [h3, h2], by rw [h1, h2]⟩

/-- C116.  A type that stands for a format gives the parser for it if that is there, and an exception otherwise; so what can be written with
a type can be read with it. -/
theorem parser_format (b : Build) (first : Begin) (t : Ty) (f : Fmt) (h : (t, f) ∈ meaning) :
    createParser b first 2 t = some (if b.has f then .ok f else .throw .runtime) := by
  simp only [meaning, List.mem_cons, Prod.mk.injEq, List.not_mem_nil, or_false] at h
  rcases h with ⟨rfl, rfl⟩ | ⟨rfl, rfl⟩ | ⟨rfl, rfl⟩ | ⟨rfl, rfl⟩ | ⟨rfl, rfl⟩ <;> rfl

/-- C116.  What an emitter is created for is read by the parser of the same format. -/
theorem same_format (b : Build) (first : Begin) (t : Ty) (f : Fmt) (h : createEmitter b t = .ok f) :
    createParser b first 2 t = some (.ok f) := by
  obtain ⟨h1, h2⟩ := ((emitter_format b t).1 f).mp h
  rw [parser_format b first t f h1, h2, if_pos rfl]

example : createEmitter ⟨true, false, true⟩ 2 = .ok .yaml := rfl

/-- C116.  Guessing: an input that begins with '<' is XML, all others YAML, or JSON without YAML. -/
theorem guess_format (b : Build) (c : UInt8) :
    createParser b (.char c) 2 GUESS = some (if c = 60 then (if b.xml then .ok .xml else .throw .runtime) else if b.yaml then .ok .yaml else .ok .json) := by
  have e : createParser b (.char c) 2 GUESS = match guessFormat b (.char c) with
      | .ok t => createParser b (.char c) 1 t
      | .throw e => some (.throw e)
      | .ub => some .ub := rfl
  rw [e]
  by_cases hc : c = 60
  · subst hc
    cases h1 : b.xml <;> simp [guessFormat, h1, createParser, XMLPLIST, mkXml]
  · cases h1 : b.yaml <;> simp [guessFormat, h1, hc, createParser, JSON, YAML, XMLPLIST, BUNDLEHDR, GUESS, MSGPACK, mkYaml]

/-- C116.  Guessing without a character to go by: YAML if there is nothing at all, where it is there; otherwise an exception. -/
theorem guess_nothing {b : Build} :
    createParser b .empty 2 GUESS = some (if b.yaml then .ok .yaml else .throw .runtime) ∧
    createParser b .blank 2 GUESS = some (.throw .runtime) := by
  constructor
  · have e : createParser b .empty 2 GUESS = match guessFormat b .empty with
        | .ok t => createParser b .empty 1 t
        | .throw e => some (.throw e)
        | .ub => some .ub := rfl
    rw [e]
    cases h1 : b.yaml <;> simp [guessFormat, h1, createParser, JSON, YAML, XMLPLIST, BUNDLEHDR, GUESS, MSGPACK, mkYaml]
  · rfl

/-- Refuted: a number that is no serialization type is refused: reading takes it for YAML. -/
theorem unknown_false (b : Build) (first : Begin) (t : Ty) (h : ∀ f, (t, f) ∉ meaning) (hg : t ≠ 0) :
    createEmitter b t = .throw .runtime ∧ createParser b first 2 t = some (mkYaml b) := by
  constructor
  · rcases (emitter_format b t).2 with ⟨f, hf⟩ | h2
    · exact absurd (((emitter_format b t).1 f).mp hf).1 (h f)
    · exact h2
  · have h1 : t ≠ 1 := by rintro rfl; exact h .json (by simp [meaning])
    have h3 : t ≠ 3 := by rintro rfl; exact h .xml (by simp [meaning])
    have h4 : t ≠ 4 := by rintro rfl; exact h .bundle (by simp [meaning])
    have h5 : t ≠ 255 := by rintro rfl; exact h .msgpack (by simp [meaning])
    simp [createParser, JSON, XMLPLIST, BUNDLEHDR, GUESS, MSGPACK, h1, h3, h4, h5, hg]

/-- Refuted: guessing finds the format that was written: no input is taken for a bundle header or MessagePack. -/
theorem guess_all_false (b : Build) (first : Begin) :
    createParser b first 2 GUESS ≠ some (.ok .bundle) ∧ createParser b first 2 GUESS ≠ some (.ok .msgpack) := by
  cases first with
  | empty => rw [guess_nothing.1]; constructor <;> split <;> nofun
  | blank => rw [guess_nothing.2]; constructor <;> nofun
  | char c =>
    rw [guess_format]
    constructor <;> (repeat' split) <;> nofun

end Verif.Dispatch
