import Verif.Event.Spec
/-!
# Recorded events: sizes, order, MessagePack headers (C31, C32)
-/

namespace Verif.Event

theorem cstr_cstr (s : Bytes) : cstr (cstr s) = cstr s := by
  unfold cstr
  induction s with
  | nil => rfl
  | cons c cs ih =>
    by_cases h : c = 0
    · simp [h]
    · rw [List.takeWhile_cons_of_pos (by simp [h]), List.takeWhile_cons_of_pos (by simp [h]), ih]

theorem updateAt_length (es : List Ev) (p : Option Nat) : (updateAt es p).length = es.length := by
  cases p <;> simp [updateAt]

theorem updateAt_mid (A : List Ev) (b : Ev) (C : List Ev) :
    updateAt (A ++ b :: C) (some A.length) = A ++ b.update :: C := by
  unfold updateAt
  induction A with
  | nil => rfl
  | cons a A ih => simpa [List.modify] using ih

theorem parentOf_snoc (es : List Ev) (e : Ev) : parentOf (es ++ [e]) = e.up es.length := by
  simp [parentOf]

theorem recordAll_append (b : Buf) (xs ys : List Call) :
    recordAll b (xs ++ ys) = recordAll (recordAll b xs) ys := by
  induction xs generalizing b with
  | nil => rfl
  | cons x xs ih => simp only [List.cons_append, recordAll, ih]

/-- The kind stored for a scalar. -/
def Atom.kind : Atom → Kind
  | .null => .null | .bool b => .bool b | .str s => .str (cstr s) | .int i => .int i | .uint u => .uint u
  | .flt d => .flt d | .blob s => .blob s

theorem record_atom (b : Buf) (a : Atom) : record b a.call = ⟨pushChild b.events a.kind, b.level⟩ := by
  cases a <;> rfl

theorem fire_atom (a : Atom) (p : Option Nat) : fire (Ev.new a.kind p) = a.plain.call := by
  cases a <;> simp [fire, Ev.new, Atom.kind, Atom.plain, Atom.call, cstr_cstr]
  simp [cstr]

theorem up_atom (a : Atom) (p : Option Nat) (i : Nat) : (Ev.new a.kind p).up i = p := by
  cases a <;> rfl

/-- What recording a value does: the enclosing container is updated once, some events are
appended, and the enclosing container stays the same. -/
def Records (b : Buf) (cs : List Call) (ex : List Call) : Prop :=
  ∃ new, recordAll b cs = ⟨updateAt b.events (parentOf b.events) ++ new, b.level⟩ ∧
    new.map fire = ex ∧
    parentOf (updateAt b.events (parentOf b.events) ++ new) = parentOf b.events

theorem toInt32_small {n : Nat} (h : n < 2 ^ 31) : toInt32 n = n := by
  unfold toInt32
  rw [Int.bmod_eq_of_le_mul_two] <;> omega

/-- Repeated updates of a map event. -/
def Ev.pairs (e : Ev) (n : Nat) : Ev := { e with len := e.len + n }

theorem finish_container {A : List Ev} {bb : Ev} {C : List Ev} {l : Int} {p : Option Nat} {k : Kind}
    {c : Call} (hc : (c = .endList ∧ k = .endList) ∨ (c = .endMap ∧ k = .endMap))
    (hp : parentOf (A ++ bb :: C) = some A.length) (hb : bb.parent = p) :
    record ⟨A ++ bb :: C, l⟩ c = ⟨A ++ bb :: (C ++ [Ev.new k p]), l - 1⟩ := by
  have hg : grandParent (A ++ bb :: C) = p := by
    unfold grandParent
    rw [hp]
    simp [hb]
  rcases hc with ⟨rfl, rfl⟩ | ⟨rfl, rfl⟩ <;> simp [record, hg]

theorem parentOf_end {A : List Ev} {bb : Ev} {C : List Ev} {p : Option Nat} {k : Kind}
    (hk : k = .endList ∨ k = .endMap) :
    parentOf (A ++ bb :: (C ++ [Ev.new k p])) = p := by
  have : A ++ bb :: (C ++ [Ev.new k p]) = (A ++ bb :: C) ++ [Ev.new k p] := by simp
  rw [this, parentOf_snoc]
  rcases hk with rfl | rfl <;> rfl

mutual
theorem records_tree : ∀ (t : Tree) (b : Buf), t.Small → Records b t.calls t.exact
  | .atom a, b, _ => by
    refine ⟨[Ev.new a.kind (parentOf b.events)], ?_, ?_, ?_⟩
    · simp [Tree.calls, recordAll, record_atom, pushChild]
    · simp [Tree.exact, fire_atom]
    · rw [parentOf_snoc, up_atom]
  | .list n xs, b, h => by
    obtain ⟨h1, h2⟩ := h
    have hp0 : parentOf (updateAt b.events (parentOf b.events) ++
        Ev.new .beginList (parentOf b.events) :: []) =
        some (updateAt b.events (parentOf b.events)).length := by
      rw [parentOf_snoc]; rfl
    obtain ⟨new, e1, e2, e3⟩ := records_list xs (updateAt b.events (parentOf b.events))
      (Ev.new .beginList (parentOf b.events)) [] (b.level + 1) h2 rfl hp0
    refine ⟨{ Ev.new .beginList (parentOf b.events) with len := xs.length } ::
      (new ++ [Ev.new .endList (parentOf b.events)]), ?_, ?_, ?_⟩
    · simp only [Tree.calls, recordAll, record, pushChild]
      rw [recordAll_append, e1]
      simp only [recordAll]
      rw [finish_container (.inl ⟨rfl, rfl⟩) e3 rfl]
      simp [Ev.new]
    · simp only [List.map_cons, List.map_append, e2, List.map_nil, Tree.exact]
      simp [fire, Ev.new, toInt32_small h1]
    · exact parentOf_end (.inl rfl)
  | .map n kvs, b, h => by
    obtain ⟨h1, h2⟩ := h
    have hp0 : parentOf (updateAt b.events (parentOf b.events) ++
        Ev.new .beginMap (parentOf b.events) :: []) =
        some (updateAt b.events (parentOf b.events)).length := by
      rw [parentOf_snoc]; rfl
    obtain ⟨new, e1, e2, e3⟩ := records_pairs kvs (updateAt b.events (parentOf b.events))
      (Ev.new .beginMap (parentOf b.events)) [] (b.level + 1) h2 rfl rfl hp0
    refine ⟨{ Ev.new .beginMap (parentOf b.events) with len := kvs.length } ::
      (new ++ [Ev.new .endMap (parentOf b.events)]), ?_, ?_, ?_⟩
    · simp only [Tree.calls, recordAll, record, pushChild]
      rw [recordAll_append, e1]
      simp only [recordAll]
      rw [finish_container (.inr ⟨rfl, rfl⟩) e3 rfl]
      simp [Ev.new]
    · simp only [List.map_cons, List.map_append, e2, List.map_nil, Tree.exact]
      simp [fire, Ev.new, toInt32_small h1]
    · exact parentOf_end (.inr rfl)
termination_by t => (sizeOf t, 0)
theorem records_list : ∀ (xs : List Tree) (A : List Ev) (bb : Ev) (C : List Ev) (l : Int),
    SmallList xs → bb.kind = .beginList → parentOf (A ++ bb :: C) = some A.length →
    ∃ new, recordAll ⟨A ++ bb :: C, l⟩ (callsList xs) =
        ⟨A ++ { bb with len := bb.len + xs.length } :: (C ++ new), l⟩ ∧
      new.map fire = exactList xs ∧
      parentOf (A ++ { bb with len := bb.len + xs.length } :: (C ++ new)) = some A.length
  | [], A, bb, C, l, _, _, hp => ⟨[], by simp [callsList, recordAll], rfl, by simpa using hp⟩
  | x :: xs, A, bb, C, l, hs, hk, hp => by
    obtain ⟨h1, h2⟩ := hs
    obtain ⟨n1, e1, e2, e3⟩ := records_tree x ⟨A ++ bb :: C, l⟩ h1
    simp only [hp, updateAt_mid] at e1 e3
    have hu : bb.update = { bb with len := bb.len + 1 } := by simp [Ev.update, hk]
    rw [hu] at e1 e3
    have e3' : parentOf (A ++ { bb with len := bb.len + 1 } :: (C ++ n1)) = some A.length := by
      simpa using e3
    obtain ⟨n2, f1, f2, f3⟩ := records_list xs A { bb with len := bb.len + 1 } (C ++ n1) l h2 hk e3'
    have hl : bb.len + 1 + xs.length = bb.len + (x :: xs).length := by simp; omega
    simp only [hl] at f1 f3
    refine ⟨n1 ++ n2, ?_, ?_, ?_⟩
    · simp only [callsList, recordAll_append, e1]
      simp only [List.append_assoc, List.cons_append] at f1 ⊢
      exact f1
    · simp [e2, f2, exactList]
    · simpa using f3
termination_by xs => (sizeOf xs, 1)
theorem records_pairs : ∀ (kvs : List (Tree × Tree)) (A : List Ev) (bb : Ev) (C : List Ev) (l : Int),
    SmallPairs kvs → bb.kind = .beginMap → bb.key = true → parentOf (A ++ bb :: C) = some A.length →
    ∃ new, recordAll ⟨A ++ bb :: C, l⟩ (callsPairs kvs) =
        ⟨A ++ { bb with len := bb.len + kvs.length } :: (C ++ new), l⟩ ∧
      new.map fire = exactPairs kvs ∧
      parentOf (A ++ { bb with len := bb.len + kvs.length } :: (C ++ new)) = some A.length
  | [], A, bb, C, l, _, _, _, hp => ⟨[], by simp [callsPairs, recordAll], rfl, by simpa using hp⟩
  | (k, x) :: kvs, A, bb, C, l, hs, hk, hkey, hp => by
    obtain ⟨h0, h1, h2⟩ := hs
    obtain ⟨n0, d1, d2, d3⟩ := records_tree k ⟨A ++ bb :: C, l⟩ h0
    simp only [hp, updateAt_mid] at d1 d3
    have hu : bb.update = { bb with key := false } := by simp [Ev.update, hk, hkey]
    rw [hu] at d1 d3
    have d3' : parentOf (A ++ { bb with key := false } :: (C ++ n0)) = some A.length := by simpa using d3
    obtain ⟨n1, e1, e2, e3⟩ := records_tree x ⟨A ++ { bb with key := false } :: (C ++ n0), l⟩ h1
    simp only [d3', updateAt_mid] at e1 e3
    have hu2 : ({ bb with key := false } : Ev).update = { bb with len := bb.len + 1 } := by
      simp [Ev.update, hk, hkey]
    rw [hu2] at e1 e3
    have e3' : parentOf (A ++ { bb with len := bb.len + 1 } :: (C ++ n0 ++ n1)) = some A.length := by
      simpa using e3
    obtain ⟨n2, f1, f2, f3⟩ := records_pairs kvs A { bb with len := bb.len + 1 } (C ++ n0 ++ n1) l h2 hk hkey e3'
    have hl : bb.len + 1 + kvs.length = bb.len + ((k, x) :: kvs).length := by simp; omega
    simp only [hl] at f1 f3
    refine ⟨n0 ++ n1 ++ n2, ?_, ?_, ?_⟩
    · simp only [callsPairs, recordAll_append, d1]
      simp only [List.append_assoc, List.cons_append] at f1 e1 ⊢
      rw [e1]
      exact f1
    · simp [d2, e2, f2, exactPairs]
    · simpa using f3
termination_by kvs => (sizeOf kvs, 1)
end

theorem records_many : ∀ (ts : List Tree) (b : Buf), SmallList ts → parentOf b.events = none →
    ∃ new, recordAll b (callsList ts) = ⟨b.events ++ new, b.level⟩ ∧ new.map fire = exactList ts ∧
      parentOf (b.events ++ new) = none
  | [], b, _, hp => ⟨[], by simp [callsList, recordAll], rfl, by simpa using hp⟩
  | t :: ts, b, hs, hp => by
    obtain ⟨n1, e1, e2, e3⟩ := records_tree t b hs.1
    simp only [hp, updateAt] at e1 e3
    obtain ⟨n2, f1, f2, f3⟩ := records_many ts ⟨b.events ++ n1, b.level⟩ hs.2 e3
    refine ⟨n1 ++ n2, ?_, by simp [e2, f2, exactList], by simpa using f3⟩
    rw [callsList, recordAll_append, e1, f1]; simp

/-- C31: recording any sequence of values, with whatever lengths the user announced, and playing
the recording back makes the same calls in the same order, each container announced with its
exact number of elements or pairs. -/
theorem recording_sizes (ts : List Tree) (h : SmallList ts) :
    playback (recordAll Buf.empty (callsList ts)) = exactList ts := by
  obtain ⟨new, e1, e2, _⟩ := records_many ts Buf.empty h rfl
  rw [e1]
  exact e2

/-- C31 with the value inside a document. -/
theorem recording_document_sizes (t : Tree) (h : t.Small) :
    playback (recordAll Buf.empty (.beginDoc :: (t.calls ++ [.endDoc]))) =
      .beginDoc :: (t.exact ++ [.endDoc]) := by
  obtain ⟨new, e1, e2, _⟩ := records_many [t] ⟨[Ev.new .beginDoc none], 1⟩ ⟨h, trivial⟩ rfl
  have hc : callsList [t] = t.calls := by simp [callsList]
  have he : exactList [t] = t.exact := by simp [exactList]
  have h0 : record Buf.empty .beginDoc = ⟨[Ev.new .beginDoc none], 1⟩ := rfl
  rw [hc] at e1; rw [he] at e2
  rw [recordAll, recordAll_append, h0, e1]
  simp only [recordAll, record, playback, List.map_append, List.map_cons, List.map_nil, e2]
  rfl

example : playback (recordAll Buf.empty (callsList
      [.map (-1) [(.atom (.str [97]), .list (-1) [.atom .null, .list 7 [], .map (-1) []])]])) =
    [.beginMap 1, .str [97], .beginList 3, .null, .beginList 0, .endList, .beginMap 0, .endMap,
      .endList, .endMap] := by decide

/-! ## The MessagePack emitter -/

theorem recordAll_level_cons (b : Buf) (c : Call) (cs : List Call) :
    recordAll b (c :: cs) = recordAll (record b c) cs := rfl

theorem mpAll_append (fuel : Nat) (m : MP) (xs ys : List Call) :
    mpAll fuel m (xs ++ ys) = (mpAll fuel m xs).bind fun m => mpAll fuel m ys := by
  induction xs generalizing m with
  | nil => simp [mpAll]
  | cons x xs ih =>
    simp only [List.cons_append]
    rw [mpAll, mpAll]
    cases mp fuel m x with
    | none => rfl
    | some m => exact ih m

theorem mp_buffered (fuel : Nat) (b : Buf) (o : List Pk) (c : Call) (hd : c ≠ .beginDoc ∧ c ≠ .endDoc)
    (h : isEnd c = true → 0 < (record b c).level) :
    mp fuel ⟨some b, o⟩ c = some ⟨some (record b c), o⟩ := by
  rw [mp]
  simp only [hd, or_self, ↓reduceIte]
  rw [if_neg]
  rintro ⟨h1, h2⟩
  have := h h1
  omega

mutual
theorem level_tree : ∀ (t : Tree) (b : Buf), (recordAll b t.calls).level = b.level
  | .atom a, b => by simp [Tree.calls, recordAll, record_atom]
  | .list n xs, b => by
    simp only [Tree.calls, recordAll, recordAll_append]
    have := level_list xs (record b (.beginList n))
    simp only [record] at this ⊢
    omega
  | .map n kvs, b => by
    simp only [Tree.calls, recordAll, recordAll_append]
    have := level_pairs kvs (record b (.beginMap n))
    simp only [record] at this ⊢
    omega
termination_by t => (sizeOf t, 0)
theorem level_list : ∀ (xs : List Tree) (b : Buf), (recordAll b (callsList xs)).level = b.level
  | [], _ => rfl
  | x :: xs, b => by rw [callsList, recordAll_append, level_list xs, level_tree x]
termination_by xs => (sizeOf xs, 1)
theorem level_pairs : ∀ (kvs : List (Tree × Tree)) (b : Buf),
    (recordAll b (callsPairs kvs)).level = b.level
  | [], _ => rfl
  | (k, x) :: m, b => by
    rw [callsPairs, recordAll_append, recordAll_append, level_pairs m, level_tree x, level_tree k]
termination_by kvs => (sizeOf kvs, 1)
end

theorem atom_not_end (a : Atom) : isEnd a.call = false ∧ (a.call ≠ .beginDoc ∧ a.call ≠ .endDoc) ∧
    unknownLength a.call = false := by
  cases a <;> simp [isEnd, Atom.call, unknownLength]

mutual
theorem mp_record_tree (fuel : Nat) (o : List Pk) : ∀ (t : Tree) (b : Buf), 1 ≤ b.level →
    mpAll fuel ⟨some b, o⟩ t.calls = some ⟨some (recordAll b t.calls), o⟩
  | .atom a, b, _ => by
    obtain ⟨h1, h2, _⟩ := atom_not_end a
    rw [Tree.calls, mpAll, mp_buffered fuel b o _ h2 (by simp [h1])]
    simp [mpAll, recordAll]
  | .list n xs, b, hb => by
    rw [Tree.calls, mpAll, mp_buffered fuel b o _ (by simp) (by simp [isEnd])]
    have hl := level_list xs (record b (.beginList n))
    have hb' : 1 ≤ (record b (.beginList n)).level := by simp only [record]; omega
    simp only
    rw [mpAll_append, mp_record_list fuel o xs _ hb']
    have hb2 : (record b (.beginList n)).level = b.level + 1 := rfl
    simp only [Option.bind_some]
    rw [mpAll, mp_buffered fuel _ o _ (by simp) (by intro _; simp only [record] at *; omega)]
    simp [mpAll, recordAll, recordAll_append]
  | .map n kvs, b, hb => by
    rw [Tree.calls, mpAll, mp_buffered fuel b o _ (by simp) (by simp [isEnd])]
    have hl := level_pairs kvs (record b (.beginMap n))
    have hb' : 1 ≤ (record b (.beginMap n)).level := by simp only [record]; omega
    simp only
    rw [mpAll_append, mp_record_pairs fuel o kvs _ hb']
    have hb2 : (record b (.beginMap n)).level = b.level + 1 := rfl
    simp only [Option.bind_some]
    rw [mpAll, mp_buffered fuel _ o _ (by simp) (by intro _; simp only [record] at *; omega)]
    simp [mpAll, recordAll, recordAll_append]
termination_by t => (sizeOf t, 0)
theorem mp_record_list (fuel : Nat) (o : List Pk) : ∀ (xs : List Tree) (b : Buf), 1 ≤ b.level →
    mpAll fuel ⟨some b, o⟩ (callsList xs) = some ⟨some (recordAll b (callsList xs)), o⟩
  | [], b, _ => by simp [callsList, mpAll, recordAll]
  | x :: xs, b, hb => by
    rw [callsList, mpAll_append, mp_record_tree fuel o x b hb]
    simp only [Option.bind_some]
    rw [mp_record_list fuel o xs _ (by rw [level_tree]; exact hb), recordAll_append]
termination_by xs => (sizeOf xs, 1)
theorem mp_record_pairs (fuel : Nat) (o : List Pk) : ∀ (kvs : List (Tree × Tree)) (b : Buf), 1 ≤ b.level →
    mpAll fuel ⟨some b, o⟩ (callsPairs kvs) = some ⟨some (recordAll b (callsPairs kvs)), o⟩
  | [], b, _ => by simp [callsPairs, mpAll, recordAll]
  | (k, x) :: m, b, hb => by
    rw [callsPairs, mpAll_append, mpAll_append, mp_record_tree fuel o k b hb]
    simp only [Option.bind_some]
    rw [mp_record_tree fuel o x _ (by rw [level_tree]; exact hb)]
    simp only [Option.bind_some]
    rw [mp_record_pairs fuel o m _ (by rw [level_tree, level_tree]; exact hb), recordAll_append,
      recordAll_append]
termination_by kvs => (sizeOf kvs, 1)
end

theorem mp_direct (fuel : Nat) (o : List Pk) (c : Call) (h : unknownLength c = false) :
    mp fuel ⟨none, o⟩ c = some ⟨none, o ++ pack c⟩ := by
  rw [mp]; simp [h]

theorem mpAll_direct (fuel : Nat) : ∀ (cs : List Call) (o : List Pk), (∀ c ∈ cs, unknownLength c = false) →
    mpAll fuel ⟨none, o⟩ cs = some ⟨none, o ++ cs.flatMap pack⟩
  | [], o, _ => by simp [mpAll]
  | c :: cs, o, h => by
    rw [mpAll, mp_direct fuel o c (h c (by simp))]
    simp only
    rw [mpAll_direct fuel cs _ (fun c hc => h c (by simp [hc]))]
    simp

theorem pack_plain (a : Atom) : pack a.plain.call = [a.packed] := by
  cases a <;> simp [pack, Atom.plain, Atom.call, Atom.packed, blobTag]
  have := cstr_cstr
  simp only [cstr] at this ⊢
  simpa using this _

theorem pack_atom (a : Atom) : pack a.call = [a.packed] := by
  cases a <;> simp [pack, Atom.call, Atom.packed, blobTag]
  simp [cstr]

mutual
theorem exact_known : ∀ (t : Tree), (∀ c ∈ t.exact, unknownLength c = false) ∧ t.exact.flatMap pack = t.packed
  | .atom a => by
    simp only [Tree.exact, Tree.packed, List.flatMap_cons, List.flatMap_nil, List.append_nil, pack_plain,
      List.mem_singleton, forall_eq, and_true]
    exact (atom_not_end _).2.2
  | .list n xs => by
    obtain ⟨h1, h2⟩ := exactList_known xs
    refine ⟨?_, ?_⟩
    · intro c hc
      simp only [Tree.exact, List.mem_cons, List.mem_append, List.not_mem_nil, or_false] at hc
      rcases hc with rfl | hc | rfl
      · simp [unknownLength]
      · exact h1 c hc
      · rfl
    · simp [Tree.exact, Tree.packed, h2, pack]
  | .map n kvs => by
    obtain ⟨h1, h2⟩ := exactPairs_known kvs
    refine ⟨?_, ?_⟩
    · intro c hc
      simp only [Tree.exact, List.mem_cons, List.mem_append, List.not_mem_nil, or_false] at hc
      rcases hc with rfl | hc | rfl
      · simp [unknownLength]
      · exact h1 c hc
      · rfl
    · simp [Tree.exact, Tree.packed, h2, pack]
termination_by t => (sizeOf t, 0)
theorem exactList_known : ∀ (xs : List Tree),
    (∀ c ∈ exactList xs, unknownLength c = false) ∧ (exactList xs).flatMap pack = packedList xs
  | [] => by simp [exactList, packedList]
  | x :: xs => by
    obtain ⟨h1, h2⟩ := exact_known x
    obtain ⟨h3, h4⟩ := exactList_known xs
    refine ⟨?_, by simp [exactList, packedList, h2, h4]⟩
    intro c hc
    rcases List.mem_append.1 hc with hc | hc
    · exact h1 c hc
    · exact h3 c hc
termination_by xs => (sizeOf xs, 1)
theorem exactPairs_known : ∀ (kvs : List (Tree × Tree)),
    (∀ c ∈ exactPairs kvs, unknownLength c = false) ∧ (exactPairs kvs).flatMap pack = packedPairs kvs
  | [] => by simp [exactPairs, packedPairs]
  | (k, x) :: m => by
    obtain ⟨h1, h2⟩ := exact_known k
    obtain ⟨h3, h4⟩ := exact_known x
    obtain ⟨h5, h6⟩ := exactPairs_known m
    refine ⟨?_, by simp [exactPairs, packedPairs, h2, h4, h6]⟩
    intro c hc
    simp only [exactPairs, List.mem_append] at hc
    rcases hc with (hc | hc) | hc
    · exact h1 c hc
    · exact h3 c hc
    · exact h5 c hc
termination_by kvs => (sizeOf kvs, 1)
end

/-- A container of unknown length is buffered to its end and then written exactly. -/
theorem mp_unknown (fuel : Nat) (o : List Pk) (t : Tree) (hs : t.Small) (open_ close : Call) (body : List Call)
    (ht : t.calls = open_ :: (body ++ [close]))
    (ho : open_ ≠ .beginDoc ∧ open_ ≠ .endDoc) (hu : unknownLength open_ = true)
    (hc : close = .endList ∨ close = .endMap)
    (hl : ∀ b : Buf, (record b open_).level = b.level + 1)
    (hb : ∀ b : Buf, 1 ≤ b.level → mpAll (fuel + 1) ⟨some b, o⟩ body = some ⟨some (recordAll b body), o⟩) :
    mpAll (fuel + 1) ⟨none, o⟩ t.calls = some ⟨none, o ++ t.packed⟩ := by
  have hrec : ∃ b, recordAll Buf.empty t.calls = b ∧ b.level = 0 ∧ playback b = t.exact := by
    refine ⟨_, rfl, level_tree t _, ?_⟩
    have := recording_sizes [t] ⟨hs, trivial⟩
    simpa [callsList, exactList] using this
  obtain ⟨b, hb1, hb2, hb3⟩ := hrec
  rw [ht] at hb1 ⊢
  rw [mpAll, mp]
  simp only [hu, ↓reduceIte]
  rw [mpAll_append, hb _ (by rw [hl]; simp [Buf.empty])]
  simp only [Option.bind_some]
  rw [recordAll, recordAll_append] at hb1
  simp only [recordAll] at hb1
  have hcd : ¬(close = .beginDoc ∨ close = .endDoc) := by rcases hc with rfl | rfl <;> simp
  have hce : isEnd close = true := by rcases hc with rfl | rfl <;> rfl
  rw [mpAll, mp]
  simp only [hcd, ↓reduceIte, hb1, hce, hb2, Int.le_refl, and_self, hb3]
  rw [mpAll_direct fuel _ _ (exact_known t).1, (exact_known t).2]
  simp [mpAll]

mutual
theorem mp_tree (fuel : Nat) : ∀ (t : Tree) (o : List Pk), t.Small → t.Honest →
    mpAll (fuel + 1) ⟨none, o⟩ t.calls = some ⟨none, o ++ t.packed⟩
  | .atom a, o, _, _ => by
    rw [Tree.calls, mpAll, mp_direct _ _ _ (atom_not_end a).2.2]
    simp [mpAll, pack_atom, Tree.packed]
  | .list n xs, o, hs, hh => by
    by_cases hn : n < 0
    · exact mp_unknown fuel o _ hs (.beginList n) .endList (callsList xs) (by simp [Tree.calls]) (by simp) (by simp [unknownLength, hn])
        (.inl rfl) (fun b => rfl) (fun b hb => mp_record_list _ o xs b hb)
    · have hn' : n = xs.length := by rcases hh.1 with h | h; exact absurd h hn; exact h
      rw [Tree.calls, mpAll, mp_direct _ _ _ (by simp [unknownLength, hn])]
      simp only
      rw [mpAll_append, mp_list fuel xs _ hs.2 hh.2]
      simp only [Option.bind_some]
      rw [mpAll, mp_direct _ _ _ (by simp [unknownLength])]
      simp [mpAll, pack, Tree.packed, hn']
  | .map n kvs, o, hs, hh => by
    by_cases hn : n < 0
    · exact mp_unknown fuel o _ hs (.beginMap n) .endMap (callsPairs kvs) (by simp [Tree.calls]) (by simp) (by simp [unknownLength, hn])
        (.inr rfl) (fun b => rfl) (fun b hb => mp_record_pairs _ o kvs b hb)
    · have hn' : n = kvs.length := by rcases hh.1 with h | h; exact absurd h hn; exact h
      rw [Tree.calls, mpAll, mp_direct _ _ _ (by simp [unknownLength, hn])]
      simp only
      rw [mpAll_append, mp_pairs fuel kvs _ hs.2 hh.2]
      simp only [Option.bind_some]
      rw [mpAll, mp_direct _ _ _ (by simp [unknownLength])]
      simp [mpAll, pack, Tree.packed, hn']
termination_by t => (sizeOf t, 0)
theorem mp_list (fuel : Nat) : ∀ (xs : List Tree) (o : List Pk), SmallList xs → HonestList xs →
    mpAll (fuel + 1) ⟨none, o⟩ (callsList xs) = some ⟨none, o ++ packedList xs⟩
  | [], o, _, _ => by simp [callsList, mpAll, packedList]
  | x :: xs, o, hs, hh => by
    rw [callsList, mpAll_append, mp_tree fuel x o hs.1 hh.1]
    simp only [Option.bind_some]
    rw [mp_list fuel xs _ hs.2 hh.2]
    simp [packedList]
termination_by xs => (sizeOf xs, 1)
theorem mp_pairs (fuel : Nat) : ∀ (kvs : List (Tree × Tree)) (o : List Pk), SmallPairs kvs → HonestPairs kvs →
    mpAll (fuel + 1) ⟨none, o⟩ (callsPairs kvs) = some ⟨none, o ++ packedPairs kvs⟩
  | [], o, _, _ => by simp [callsPairs, mpAll, packedPairs]
  | (k, x) :: m, o, hs, hh => by
    rw [callsPairs, mpAll_append, mpAll_append, mp_tree fuel k o hs.1 hh.1]
    simp only [Option.bind_some]
    rw [mp_tree fuel x _ hs.2.1 hh.2.1]
    simp only [Option.bind_some]
    rw [mp_pairs fuel m _ hs.2.2 hh.2.2]
    simp [packedPairs]
termination_by kvs => (sizeOf kvs, 1)
end

/-- C32: for every sequence of values in which each container's length is announced as unknown
or correctly, in any mixture, the emitter writes every container header with its exact element
count and the contents in order, and ends with nothing left in its buffer. -/
theorem msgpack_exact_headers (ts : List Tree) (hs : SmallList ts) (hh : HonestList ts) (fuel : Nat) :
    mpAll (fuel + 1) MP.init (callsList ts) = some ⟨none, packedList ts⟩ := by
  rw [MP.init, mp_list fuel ts [] hs hh]
  simp

example : mpAll 1 MP.init (callsList
      [.list 2 [.map (-1) [(.atom (.str [97]), .list 1 [.list (-1) []])], .atom (.bool true)]]) =
    some ⟨none, [.array 2, .map 1, .string [97], .array 1, .array 0, .bool true]⟩ := by
  rw [msgpack_exact_headers _ _ _ 0]
  · rfl
  · simp [SmallList, Tree.Small, SmallPairs]
  · simp [HonestList, Tree.Honest, HonestPairs]

end Verif.Event
