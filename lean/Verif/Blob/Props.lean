import Verif.Blob.Model
/-!
# C23, C24: blobs
-/

namespace Verif.Blob

/-- Specification: compare two byte strings at their first difference; if one is a prefix of
the other there is none. -/
def firstDiff : Bytes → Bytes → Ordering
  | a :: as, b :: bs => if a = b then firstDiff as bs else if a.toNat < b.toNat then .lt else .gt
  | _, _ => .eq

theorem memcmp_eq_firstDiff (a b : Bytes) : memcmp a b = firstDiff a b := by
  induction a generalizing b with
  | nil => cases b <;> rfl
  | cons x xs ih =>
    cases b with
    | nil => rfl
    | cons y ys =>
      simp only [memcmp, firstDiff, UInt8.lt_iff_toNat_lt, ← UInt8.toNat_inj, ih]
      split
      · rw [if_neg (by omega)]
      · split
        · rw [if_neg (by omega)]
        · rw [if_pos (by omega)]

theorem firstDiff_append (a b x y : Bytes) (h : a.length = b.length) :
    firstDiff (a ++ x) (b ++ y) = (match firstDiff a b with | .eq => firstDiff x y | o => o) := by
  induction a generalizing b with
  | nil => cases b with
    | nil => rfl
    | cons => simp at h
  | cons p ps ih =>
    cases b with
    | nil => simp at h
    | cons q qs =>
      simp only [List.cons_append, firstDiff]
      split
      · exact ih qs (by simpa using h)
      · split <;> rfl

theorem firstDiff_nil_right (a : Bytes) : firstDiff a [] = .eq := by cases a <;> rfl

theorem split_at (l : Bytes) (o n : Nat) (t : Bytes) :
    l.drop o ++ t = (l.drop o).take n ++ (l.drop (o + n) ++ t) := by
  rw [← List.append_assoc, ← List.drop_drop, List.take_append_drop]

/-- Bytes from offset `o` of the current buffer on. -/
def restOf (xs : List Bytes) (o : Nat) : Bytes :=
  match xs with
  | [] => []
  | x :: r => x.drop o ++ r.flatten

theorem restOf_zero (xs : List Bytes) : restOf xs 0 = xs.flatten := by
  cases xs <;> simp [restOf]

theorem compareFrom_spec (xs : List Bytes) (xo : Nat) (ys : List Bytes) (yo : Nat) :
    compareFrom xs xo ys yo = firstDiff (restOf xs xo) (restOf ys yo) := by
  have hlen : ∀ (x y : Bytes) (xo yo : Nat),
      ((x.drop xo).take (min (x.length - xo) (y.length - yo))).length =
      ((y.drop yo).take (min (x.length - xo) (y.length - yo))).length := by
    intro x y xo yo; simp
  have step : ∀ (x y : Bytes) (xs ys : List Bytes) (xo yo : Nat),
      firstDiff (restOf (x :: xs) xo) (restOf (y :: ys) yo) =
      (match memcmp ((x.drop xo).take (min (x.length - xo) (y.length - yo)))
        ((y.drop yo).take (min (x.length - xo) (y.length - yo))) with
       | .eq => firstDiff (x.drop (xo + min (x.length - xo) (y.length - yo)) ++ xs.flatten)
          (y.drop (yo + min (x.length - xo) (y.length - yo)) ++ ys.flatten)
       | o => o) := by
    intro x y xs ys xo yo
    simp only [restOf]
    rw [split_at x xo (min (x.length - xo) (y.length - yo)),
      split_at y yo (min (x.length - xo) (y.length - yo)), firstDiff_append _ _ _ _ (hlen x y xo yo),
      memcmp_eq_firstDiff]
  fun_induction compareFrom xs xo ys yo with
  | case1 xo yo x xs' y ys' len hm => rw [step, hm]
  | case2 xo yo x xs' y ys' len hm => rw [step, hm]
  | case3 xo yo x xs' y ys' len hm xo' yo' hx hy ih =>
    rw [step, hm, ih, restOf_zero, restOf_zero]
    simp only
    rw [List.drop_eq_nil_of_le hx, List.drop_eq_nil_of_le hy]; rfl
  | case4 xo yo x xs' y ys' len hm xo' yo' hx hy ih =>
    rw [step, hm, ih, restOf_zero]
    simp only [restOf]
    rw [List.drop_eq_nil_of_le hx]; rfl
  | case5 xo yo x xs' y ys' len hm xo' yo' hx hy ih =>
    rw [step, hm, ih, restOf_zero]
    simp only [restOf]
    rw [List.drop_eq_nil_of_le hy]; rfl
  | case6 xo yo x xs' y ys' len hm xo' yo' hx hy =>
    exfalso; simp only [xo', yo', len] at hx hy; omega
  | case7 xs xo ys yo h =>
    cases xs with
    | nil => simp [restOf, firstDiff]
    | cons a b =>
      cases ys with
      | nil => simp [restOf, firstDiff_nil_right]
      | cons c d => exact absurd rfl (h a b c d rfl)

/-- C23.  Comparison depends only on the bytes: it is decided by the first difference of the
two contents, however they are cut into buffers. -/
theorem compare_firstDiff (a b : List Bytes) : compare a b = firstDiff a.flatten b.flatten := by
  rw [compare, compareFrom_spec, restOf_zero, restOf_zero]

example : compare [[1, 2], [], [3]] [[1], [2, 4]] = .lt := by
  rw [compare_firstDiff]; decide

theorem firstDiff_eq_iff_of_length (a b : Bytes) (h : a.length = b.length) :
    firstDiff a b = .eq ↔ a = b := by
  induction a generalizing b with
  | nil => cases b <;> simp_all [firstDiff]
  | cons x xs ih =>
    cases b with
    | nil => simp at h
    | cons y ys =>
      simp only [firstDiff]
      split
      · rename_i e; subst e; simp [ih ys (by simpa using h)]
      · rename_i e
        split <;> simp [e]

/-- C23 (partial).  For blobs of the same total length, comparing equal is having the same
bytes.  Missing: blobs of different lengths, where the claim is false, see
`compare_distinguishes_false`. -/
theorem compare_eq_iff_partial (a b : List Bytes) (h : a.flatten.length = b.flatten.length) :
    compare a b = .eq ↔ a.flatten = b.flatten := by
  rw [compare_firstDiff]; exact firstDiff_eq_iff_of_length _ _ h

example : compare [[1, 2], [3]] [[1], [2, 4]] ≠ .eq :=
  fun h => absurd ((compare_eq_iff_partial _ _ (by decide)).1 h) (by decide)

/-- C23, finding: a blob compares equal to every extension of it, so different contents can
compare equal and equality is not transitive. -/
theorem compare_distinguishes_false :
    ∃ a b c : List Bytes, compare a b = .eq ∧ a.flatten ≠ b.flatten ∧
      compare a c = .eq ∧ compare b c ≠ .eq :=
  ⟨[[1]], [[1, 2]], [[1, 3]], by rw [compare_firstDiff]; decide, by decide,
    by rw [compare_firstDiff]; decide, by rw [compare_firstDiff]; decide⟩

/-- C23, the exact set of "equal" pairs: one content is a prefix of the other. -/
theorem compare_eq_iff_prefix (a b : List Bytes) :
    compare a b = .eq ↔ a.flatten <+: b.flatten ∨ b.flatten <+: a.flatten := by
  rw [compare_firstDiff]
  generalize a.flatten = x
  generalize b.flatten = y
  induction x generalizing y with
  | nil => simp [firstDiff]
  | cons p ps ih =>
    cases y with
    | nil => simp [firstDiff]
    | cons q qs =>
      simp only [firstDiff, List.cons_prefix_cons]
      split
      · rename_i e; subst e; simp [ih]
      · rename_i e
        have e' : ¬ q = p := fun h => e h.symm
        split <;> simp [e, e']

/-! ## Copy -/

theorem contents_length (m : Mem) (iov : List Iov) :
    (contents m iov).length = (iov.map (·.len)).sum := by
  induction iov with
  | nil => rfl
  | cons v vs ih =>
    simp only [contents, List.map_cons, List.flatten_cons, List.length_append, List.sum_cons] at *
    rw [ih]; simp [bytesAt]

theorem totalLength_eq (lens : List Nat) (h : lens.sum < 2 ^ 32) : totalLength lens = lens.sum := by
  have : ∀ (l : List Nat) (s : Nat), s + l.sum < 2 ^ 32 →
      l.foldl (fun s l => (s + l) % 2 ^ 32) s = s + l.sum := by
    intro l
    induction l with
    | nil => intro s _; simp
    | cons x xs ih =>
      intro s hs
      simp only [List.foldl_cons, List.sum_cons] at *
      rw [Nat.mod_eq_of_lt (by omega), ih _ (by omega)]; omega
  have := this lens 0 (by omega)
  simpa [totalLength] using this

/-- Two buffers (or a buffer and an allocation) do not overlap. -/
def Disjoint (v : Iov) (base len : Nat) : Prop := v.base + v.len ≤ base ∨ base + len ≤ v.base

theorem bytesAt_congr (m m' : Mem) (v : Iov)
    (h : ∀ a, v.base ≤ a → a < v.base + v.len → m' a = m a) : bytesAt m' v = bytesAt m v := by
  apply List.map_congr_left
  intro k hk
  simp only [List.mem_range] at hk
  exact h _ (by omega) (by omega)

theorem contents_congr (m m' : Mem) (iov : List Iov)
    (h : ∀ v ∈ iov, ∀ a, v.base ≤ a → a < v.base + v.len → m' a = m a) :
    contents m' iov = contents m iov := by
  unfold contents
  congr 1
  apply List.map_congr_left
  intro v hv
  exact bytesAt_congr _ _ _ (h v hv)

theorem copyLoop_spec (dst cap : Nat) (iov : List Iov) (m : Mem) (copied : Nat)
    (hcap : copied + (iov.map (·.len)).sum = cap)
    (hd : ∀ v ∈ iov, Disjoint v dst cap) :
    ∃ m', copyLoop dst cap m copied iov = .ok m' ∧
      (∀ a, (a < dst + copied ∨ dst + cap ≤ a) → m' a = m a) ∧
      bytesAt m' ⟨dst + copied, cap - copied⟩ = contents m iov := by
  induction iov generalizing m copied with
  | nil =>
    simp at hcap; subst hcap
    exact ⟨m, rfl, fun _ _ => rfl, by simp [bytesAt, contents]⟩
  | cons v vs ih =>
    simp only [List.map_cons, List.sum_cons] at hcap
    have hdv := hd v (by simp)
    obtain ⟨m', h1, h2, h3⟩ := ih (memcpy m (dst + copied) v) (copied + v.len) (by omega)
      (fun w hw => hd w (by simp [hw]))
    refine ⟨m', ?_, ?_, ?_⟩
    · simp only [copyLoop]; rw [if_neg (by omega)]; exact h1
    · intro a ha
      rw [h2 a (by omega)]
      simp only [memcpy]; rw [if_neg (by omega)]
    · have hv : contents (memcpy m (dst + copied) v) vs = contents m vs := by
        apply contents_congr
        intro w hw a ha1 ha2
        have := hd w (by simp [hw])
        simp only [memcpy, Disjoint] at *
        rw [if_neg (by omega)]
      rw [hv] at h3
      have hsplit : bytesAt m' ⟨dst + copied, cap - copied⟩ =
          bytesAt m' ⟨dst + copied, v.len⟩ ++ bytesAt m' ⟨dst + (copied + v.len), cap - (copied + v.len)⟩ := by
        simp only [bytesAt]
        rw [show cap - copied = v.len + (cap - (copied + v.len)) by omega, List.range_add]
        simp only [List.map_append, List.map_map]
        congr 1
        apply List.map_congr_left
        intro k _
        simp only [Function.comp_apply]
        congr 1; omega
      have hfirst : bytesAt m' ⟨dst + copied, v.len⟩ = bytesAt m v := by
        apply List.map_congr_left
        intro k hk
        simp only [List.mem_range] at hk
        simp only
        rw [h2 _ (by omega)]
        simp only [memcpy]
        rw [if_pos (by omega)]
        congr 1; omega
      rw [hsplit, hfirst, h3]
      simp [contents]

/-- C24.  Copying a blob of less than 4 GiB into a fresh allocation gives one buffer with the
same bytes and the same total length, and changes no memory outside the allocation (so the
original still has its contents). -/
theorem createCopy_faithful_partial (m : Mem) (dst : Nat) (iov : List Iov)
    (hsize : (iov.map (·.len)).sum < 2 ^ 32)
    (hfresh : ∀ v ∈ iov, Disjoint v dst (iov.map (·.len)).sum) :
    ∃ m' copy, createCopy m dst iov = .ok (m', copy) ∧
      contents m' copy = contents m iov ∧
      totalLength (copy.map (·.len)) = totalLength (iov.map (·.len)) ∧
      contents m' iov = contents m iov ∧
      (∀ a, (a < dst ∨ dst + (iov.map (·.len)).sum ≤ a) → m' a = m a) := by
  obtain ⟨m', h1, h2, h3⟩ := copyLoop_spec dst _ iov m 0 (by simp) hfresh
  have hl := totalLength_eq _ hsize
  refine ⟨m', [⟨dst, totalLength (iov.map (·.len))⟩], ?_, ?_, ?_, ?_, ?_⟩
  · simp only [createCopy, hl, h1, Out.bind_ok]; rfl
  · rw [hl]; simpa [contents] using h3
  · rw [hl]; simp [totalLength, Nat.mod_eq_of_lt hsize]
  · apply contents_congr
    intro v hv a ha1 ha2
    have := hfresh v hv
    simp only [Disjoint] at this
    exact h2 a (by omega)
  · intro a ha; exact h2 a (by omega)

/-- C24.  Later writes anywhere outside the copy's allocation (in particular to the
original's buffers) do not change the copy. -/
theorem copy_independent (m m' : Mem) (dst len : Nat)
    (h : ∀ a, dst ≤ a → a < dst + len → m' a = m a) :
    contents m' [⟨dst, len⟩] = contents m [⟨dst, len⟩] := by
  apply contents_congr
  intro v hv; simp at hv; subst hv; exact h

example : ∃ m' copy, createCopy (fun a => UInt8.ofNat a) 100 [⟨1, 2⟩, ⟨7, 1⟩] = .ok (m', copy) ∧
    contents m' copy = [1, 2, 7] := by
  obtain ⟨m', c, h, h', _⟩ := createCopy_faithful_partial (fun a => UInt8.ofNat a) 100 [⟨1, 2⟩, ⟨7, 1⟩]
    (by decide) (by simp [Disjoint])
  exact ⟨m', c, h, by rw [h']; decide⟩

/-- C24, finding: when the total length reaches 2^32 the allocation is too small and the copy
writes past it. -/
theorem createCopy_wrap_ub (m : Mem) (dst : Nat) :
    createCopy m dst [⟨0, 2 ^ 31⟩, ⟨0, 2 ^ 31⟩] = .ub := by
  have h : totalLength [2 ^ 31, 2 ^ 31] = 0 := by decide
  simp only [createCopy, List.map_cons, List.map_nil, h, copyLoop]
  rw [if_pos (by decide)]; rfl

end Verif.Blob
