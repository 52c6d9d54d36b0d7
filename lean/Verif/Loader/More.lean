import Verif.Loader.Examples
/-!
# Forgetting schemas, and files named by a whole path (C62, C65)
-/

namespace Verif.Loader
open Verif Uri Ext

/-- C62.  After `ForgetSchema` the URI is unknown to the loader and every other schema is still there. -/
theorem forget_only {s : Schemas} (hs : AMap.Sorted s) (uri : Bytes) :
    AMap.get (forgetSchema s uri) uri = none ∧ ∀ k, k ≠ uri → AMap.get (forgetSchema s uri) k = AMap.get s k :=
  ⟨AMap.get_erase_self hs uri, fun k hk => AMap.get_erase_other s uri k hk⟩

/-- C62.  `ForgetSchema` and then `AddSchema` replaces a schema: the lookup finds the new one. -/
theorem forget_replaces (p : Nat) {s : Schemas} (hs : AMap.Sorted s) {uri : Bytes} (hu : resolveURI uri [] = uri) (h : Option Handler)
    (bases : List Layer) (v : Val) :
    (getSchema p (⟨addSchema (forgetSchema s uri) uri v, h⟩ :: bases) uri).2 = .ok (norm uri v) := by
  have := (add_defines (forgetSchema s uri) uri v).1 (by rw [hu]; exact (forget_only hs uri).1)
  rw [hu] at this
  simp only [getSchema, this]

example : AMap.Sorted [(exUri, exDoc)] ∧ resolveURI exUri [] = exUri := ⟨by simp [AMap.Sorted, AMap.above], by decide⟩

/-- C65.  A URI that names a file by a whole path, after `file://` if it has that scheme, is read from that path and
from nowhere else, whatever the search paths are. -/
theorem absolute_file_read (p : Nat) {src : Sources} {paths : List Bytes} {user : Option Handler} {s : Schemas} {uri path : Bytes} {i : Info}
    {doc : Val} (hi : parseURI uri = some i) (hne : uri ≠ [])
    (hpath : (i.protocol = [] ∧ path = i.authority ++ i.pathname) ∨
      (i.protocol = [102, 105, 108, 101, 58] ∧ ∃ a, i.authority = 47 :: 47 :: a ∧ path = a ++ i.pathname) ∨
      (i.protocol = [102, 105, 108, 101, 58] ∧ i.authority = [] ∧ path = i.pathname))
    (habs : path.head? = some 47) (hf : src.file (path.takeWhile (· ≠ 0)) = .ok doc)
    (hu : resolveURI uri [] = uri) (hz : i.href = uri) (hh : (35 : UInt8) ∉ uri) (hn : AMap.get s uri = none) :
    (getSchema p [⟨s, some (advMissing src paths user)⟩] uri).2 = .ok (norm uri doc) := by
  have hp : filePath i = path := by
    unfold filePath
    rcases hpath with ⟨h1, rfl⟩ | ⟨h1, a, h2, rfl⟩ | ⟨h1, h2, rfl⟩
    · by_cases ha : i.authority = []
      · rw [if_neg (by simp [ha]), ha]
      · rw [if_pos ha, if_neg (by simp [h1])]
    · rw [if_pos (by rw [h2]; simp), if_pos (by rw [h1, h2]; simp), h2]
      rfl
    · rw [if_neg (by simp [h2])]
      rfl
  have hl : advMissing src paths user s uri = (addSchema s uri doc, .ok true) := by
    have hl' : loadFromFile src paths s i = (addSchema s uri doc, .ok true) := by
      unfold loadFromFile
      rw [hp, if_pos habs, hf, hz]
      rfl
    unfold advMissing
    rw [if_neg hne, hi]
    dsimp only
    rw [hl']
    by_cases h1 : i.protocol = []
    · rw [if_pos h1]
      simp only [orElse, ite_self]
    · have h2 : i.protocol = sFile := by
        rcases hpath with ⟨h, _⟩ | ⟨h, _⟩ | ⟨h, _⟩
        · exact absurd h h1
        · exact h
        · exact h
      rw [if_neg h1, if_pos h2]
      simp only [orElse, ite_self]
  simp only [getSchema, hn, splitUri_plain hh, hu]
  rw [if_neg (by simp)]
  simp only [handleMissing, hl]
  have := (add_defines s uri doc).1 (by rw [hu]; exact hn)
  rw [hu] at this
  rw [this]
  exact inside_nil p _

/-- file:///b -/
example : ∃ i, parseURI [102, 105, 108, 101, 58, 47, 47, 47, 98] = some i ∧ i.protocol = [102, 105, 108, 101, 58] ∧
    (∃ a, i.authority = 47 :: 47 :: a ∧ (a ++ i.pathname) = [47, 98]) ∧ i.href = [102, 105, 108, 101, 58, 47, 47, 47, 98] ∧
    resolveURI [102, 105, 108, 101, 58, 47, 47, 47, 98] [] = [102, 105, 108, 101, 58, 47, 47, 47, 98] :=
  ⟨⟨[102, 105, 108, 101, 58, 47, 47, 47, 98], [102, 105, 108, 101, 58], [47, 47], [47, 98], [], []⟩, by decide, rfl, ⟨[], rfl, rfl⟩, rfl, by decide⟩

end Verif.Loader
