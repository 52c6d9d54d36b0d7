import Verif.Payload.Header
import Verif.Payload.Align
import Verif.Payload.BundleRead
import Verif.Blob.Props
/-!
# Writing a bundle, and reading what was written
-/

namespace Verif.PBundle
open Verif Verif.JsonDrv Verif.Event
open Verif.Bundle (Input St BEv Serves Lines memberLine memberText allSome GoodKey GoodMember GoodLine ReadBack versionText upToNul)
open Verif.Payload (Opts findPayload findLength payloadCalls padLen next_none)

/-! ## The calls -/

mutual
theorem calls_exact (num : Bytes → Option UInt64) (n : UInt64) : ∀ v : Val, payloadCalls num n v none none = .ok (valTree v).calls
  | .null => rfl
  | .bool _ => rfl
  | .int _ => rfl
  | .uint _ => rfl
  | .flt _ => rfl
  | .str _ => rfl
  | .blob _ => rfl
  | .list xs => by
    have h := listCalls_exact num n xs 0
    simp only [payloadCalls, Payload.early, Payload.pathNum, Payload.listTail, Payload.listSize, Out.bind_ok, h, reduceCtorEq, if_false,
      valTree, Tree.calls, List.append_nil]
  | .map m => by
    have h := mapCalls_exact num n m
    simp only [payloadCalls, Payload.early, Payload.pathText, Payload.mapTail, Payload.mapSize, Payload.hasNext, Out.bind_ok, h, reduceCtorEq,
      if_false, valTree, Tree.calls, List.append_nil]
    simp
theorem listCalls_exact (num : Bytes → Option UInt64) (n : UInt64) : ∀ (xs : List Val) (i : Nat),
    payloadCalls.listCalls num n i xs none none none = .ok (callsList (valTrees xs))
  | [], _ => rfl
  | x :: xs, i => by
    have h1 := calls_exact num n x
    have h2 := listCalls_exact num n xs (i + 1)
    simp only [payloadCalls.listCalls, Payload.pathNum, Out.bind_ok, next_none, h1, h2, valTrees, callsList]
theorem mapCalls_exact (num : Bytes → Option UInt64) (n : UInt64) : ∀ (m : List (Bytes × Val)),
    payloadCalls.mapCalls num n m none none = .ok (callsPairs (valPairs m))
  | [] => rfl
  | (k, x) :: m => by
    have h1 := calls_exact num n x
    have h2 := mapCalls_exact num n m
    simp only [payloadCalls.mapCalls, Payload.pathText, next_none, h1, h2, Out.bind_ok, valPairs, callsPairs, Tree.calls, Atom.call]
    simp
end

/-- The members written: the payload itself is not, and its length is written in its place, at the end if there is no
such member. -/
def written (n : UInt64) (m : List (Bytes × Val)) : List (Bytes × Val) :=
  (m.filter fun p => p.1 ≠ dataKey).map (fun p => if p.1 = lengthKey then (p.1, .uint n) else p) ++
    if (AMap.get m lengthKey).isSome then [] else [(lengthKey, .uint n)]

theorem keys_differ : lengthKey ≠ dataKey := by decide

theorem early_length (num : Bytes → Option UInt64) (n : UInt64) (v : Val) : payloadCalls num n v (some []) none = .ok [.uint n] := by
  cases v <;> rfl

theorem mapCalls_bundle (num : Bytes → Option UInt64) (n : UInt64) (m : List (Bytes × Val)) :
    payloadCalls.mapCalls num n m (some [.key lengthKey]) (some [.key dataKey]) =
      .ok (callsPairs (valPairs ((m.filter fun p => p.1 ≠ dataKey).map fun p => if p.1 = lengthKey then (p.1, .uint n) else p))) := by
  induction m with
  | nil => rfl
  | cons p m ih =>
    obtain ⟨k, x⟩ := p
    rw [payloadCalls.mapCalls]
    simp only [Payload.pathText, Payload.elemText, Option.map_some, List.tail_cons, Option.some.injEq]
    by_cases hd : dataKey = k
    · subst hd
      rw [if_pos ⟨rfl, trivial⟩, ih, List.filter_cons_of_neg (by simp)]
    · rw [if_neg (fun h => hd h.1), List.filter_cons_of_pos (by simpa using fun e => hd e.symm), List.map_cons]
      by_cases hl : lengthKey = k
      · subst hl
        rw [if_pos rfl]
        simp only [decide_true, decide_false, hd, Payload.next, if_true, Option.map_some, List.tail_cons, Bool.false_eq_true, if_false,
          early_length, ih, Out.bind_ok, valPairs, callsPairs, Tree.calls, Atom.call, valTree, List.cons_append, List.nil_append]
      · rw [if_neg (fun e => hl e.symm)]
        simp only [hl, hd, decide_false, Payload.next, Bool.false_eq_true, if_false, calls_exact, ih, Out.bind_ok, valPairs, callsPairs,
          Tree.calls, Atom.call, List.cons_append, List.nil_append]

theorem pairs_append (a b : List (Bytes × Val)) :
    callsPairs (valPairs (a ++ b)) = callsPairs (valPairs a) ++ callsPairs (valPairs b) := by
  induction a with
  | nil => rfl
  | cons p a ih =>
    obtain ⟨k, x⟩ := p
    simp only [List.cons_append, valPairs, callsPairs, ih, List.append_assoc]

theorem calls_bundle (num : Bytes → Option UInt64) (n : UInt64) (m : List (Bytes × Val)) :
    ∃ c, payloadCalls num n (.map m) (some opts.lengthPath) (some opts.dataPath) =
      .ok (.beginMap c :: (callsPairs (valPairs (written n m)) ++ [.endMap])) := by
  have hn : Payload.hasNext m (some [.key lengthKey]) = (AMap.get m lengthKey).isSome := rfl
  refine ⟨toInt32 (Payload.mapSize m (some [.key lengthKey]) (some [.key dataKey])), ?_⟩
  have ht : Payload.mapTail n m (some [.key lengthKey]) =
      .ok (callsPairs (valPairs (if (AMap.get m lengthKey).isSome then [] else [(lengthKey, .uint n)]))) := by
    simp only [Payload.mapTail, Payload.pathText, Payload.elemText, hn]
    cases (AMap.get m lengthKey).isSome <;> rfl
  simp only [payloadCalls, opts, Payload.early, Option.some.injEq, reduceCtorEq, if_false, mapCalls_bundle, ht, Out.bind_ok, written,
    pairs_append]

theorem emits_bundle (ff : UInt64 → Bytes) (c : Int) (ms : List (Bytes × Val)) (cs : List Call)
    (h : cs = .beginMap c :: (callsPairs (valPairs ms) ++ [.endMap])) :
    (Bundle.emits ff .start (.beginDoc :: cs ++ [.endDoc])).map (·.2) =
      (allSome (ms.map (memberLine ff))).map fun ls => versionText ++ ls.flatten := by
  subst h
  simp only [List.cons_append, Bundle.emits, Bundle.emit, if_true, Bundle.emits_append, Bundle.emits_members]
  cases allSome (ms.map (memberLine ff)) with
  | none => rfl
  | some ls => simp [Bundle.emits, Bundle.emit]; rfl

/-- What the writer does with a map whose payload is `segs`. -/
theorem write_spec (num : Bytes → Option UInt64) (ff : UInt64 → Bytes) (before : Nat) {m : List (Bytes × Val)} {segs : List Bytes}
    (hp : AMap.get m dataKey = some (.blob segs) ∨ AMap.get m dataKey = none ∧ segs = []) :
    writeBundle num ff opts before (.map m) =
      match allSome ((written (UInt64.ofNat (Blob.totalLength (segs.map (·.length)))) m).map (memberLine ff)) with
      | none => .throw .runtime
      | some ls => .ok (versionText ++ ls.flatten ++ List.replicate (padLen (before + (versionText ++ ls.flatten).length)) 10 ++ [0] ++
          segs.flatten) := by
  have hpath : ∀ k, getPath? (.map m) [.key k] = AMap.get m k := by
    intro k
    simp only [getPath?, getElem?, getKey?]
    cases AMap.get m k <;> rfl
  have hfind : findPayload (.map m) opts = .ok segs ∧
      findLength num (.map m) opts segs = .ok (UInt64.ofNat (Blob.totalLength (segs.map (·.length)))) ∧
      (if hasPath (.map m) opts.dataPath ∧ ¬ opts.ignorePayload = true then segs.flatten else []) = segs.flatten := by
    rcases hp with hp | ⟨hp, rfl⟩
    · have hh : hasPath (.map m) opts.dataPath = true := by rw [hasPath, opts, hpath, hp]; rfl
      refine ⟨?_, ?_, ?_⟩
      · rw [findPayload, if_pos hh]
        simp only [opts, getPath, getElemC, getKeyC, hp]
        rfl
      · rw [findLength, if_pos hh]; rfl
      · rw [if_pos ⟨hh, by decide⟩]
    · have hh : hasPath (.map m) opts.dataPath = false := by rw [hasPath, opts, hpath, hp]; rfl
      refine ⟨?_, ?_, ?_⟩
      · rw [findPayload, hh]; rfl
      · rw [findLength, hh]; rfl
      · rw [hh]; rfl
  obtain ⟨c, hc⟩ := calls_bundle num (UInt64.ofNat (Blob.totalLength (segs.map (·.length)))) m
  have he := emits_bundle ff c (written (UInt64.ofNat (Blob.totalLength (segs.map (·.length)))) m) _ rfl
  rw [writeBundle, if_neg (by simp [Val.ty]), hfind.1]
  simp only [Out.bind_ok, hfind.2.1, hc, hfind.2.2]
  revert he
  cases Bundle.emits ff .start _ with
  | none =>
    cases allSome ((written (UInt64.ofNat (Blob.totalLength (segs.map (·.length)))) m).map (memberLine ff)) with
    | none => intro _; rfl
    | some ls => intro h; cases h
  | some p =>
    cases allSome ((written (UInt64.ofNat (Blob.totalLength (segs.map (·.length)))) m).map (memberLine ff)) with
    | none => intro h; cases h
    | some ls =>
      intro h
      obtain ⟨st, t⟩ := p
      have : t = versionText ++ ls.flatten := Option.some.inj h
      subst this
      rfl

/-! ## The members written -/

theorem written_mem {n : UInt64} {m : List (Bytes × Val)} (hs : AMap.Sorted m) (k : Bytes) (x : Val) :
    (k, x) ∈ written n m ↔ (k = lengthKey ∧ x = .uint n) ∨ (k ≠ dataKey ∧ k ≠ lengthKey ∧ AMap.get m k = some x) := by
  rw [written, List.mem_append, List.mem_map]
  constructor
  · rintro (⟨⟨k', x'⟩, h1, h2⟩ | h)
    · rw [List.mem_filter] at h1
      obtain ⟨h1, h3⟩ := h1
      have hd : k' ≠ dataKey := by simpa using h3
      by_cases hl : k' = lengthKey
      · rw [if_pos hl] at h2
        cases h2
        exact .inl ⟨hl, rfl⟩
      · rw [if_neg hl] at h2
        cases h2
        exact .inr ⟨hd, hl, AMap.get_of_mem hs h1⟩
    · split at h
      · cases h
      · cases List.mem_singleton.1 h
        exact .inl ⟨rfl, rfl⟩
  · rintro (⟨rfl, rfl⟩ | ⟨h1, h2, h3⟩)
    · cases hg : AMap.get m lengthKey with
      | none => right; simp
      | some y =>
        left
        exact ⟨(lengthKey, y), by rw [List.mem_filter]; exact ⟨AMap.get_mem hg, by simpa using keys_differ⟩, by simp⟩
    · left
      exact ⟨(k, x), by rw [List.mem_filter]; exact ⟨AMap.get_mem h3, by simpa using h1⟩, by simp [h2]⟩

theorem length_good : GoodKey lengthKey := by
  refine ⟨by decide, ?_, by decide⟩
  intro x h
  cases h; rfl

theorem written_good {ff : UInt64 → Bytes} {n : UInt64} {m : List (Bytes × Val)} (hs : AMap.Sorted m)
    (hm : ∀ k x, AMap.get m k = some x → k ≠ dataKey → k ≠ lengthKey → GoodKey k ∧ GoodMember ff x) :
    ∀ p ∈ written n m, GoodKey p.1 ∧ GoodMember ff p.2 := by
  rintro ⟨k, x⟩ hp
  rcases (written_mem hs k x).1 hp with ⟨rfl, rfl⟩ | ⟨h1, h2, h3⟩
  · exact ⟨length_good, (Bundle.scalars_good ff true 0 n).2.2.2⟩
  · exact hm k x h3 h1 h2

theorem written_unique {n : UInt64} {m : List (Bytes × Val)} (hs : AMap.Sorted m) {k : Bytes} {x x' : Val}
    (h : (k, x) ∈ written n m) (h' : (k, x') ∈ written n m) : x = x' := by
  rcases (written_mem hs k x).1 h with ⟨h1, h2⟩ | ⟨h1, h2, h3⟩ <;>
    rcases (written_mem hs k x').1 h' with ⟨h4, h5⟩ | ⟨h4, h5, h6⟩
  · rw [h2, h5]
  · exact absurd h1 h5
  · exact absurd h4 h2
  · rw [h3] at h6; exact Option.some.inj h6

theorem lines_noNul {ff : UInt64 → Bytes} : ∀ {ms : List (Bytes × Val)} {ls : List Bytes},
    (∀ p ∈ ms, GoodKey p.1 ∧ GoodMember ff p.2) → allSome (ms.map (memberLine ff)) = some ls → 0 ∉ ls.flatten := by
  intro ms
  induction ms with
  | nil => intro ls _ h; cases h; nofun
  | cons p ms ih =>
    obtain ⟨k, x⟩ := p
    intro ls hm h
    obtain ⟨l, r, h1, h2, rfl⟩ := Bundle.allSome_cons h
    obtain ⟨hk, hx⟩ := hm (k, x) (by simp)
    obtain ⟨t, ht, hg, _⟩ := Bundle.goodMember_text hx
    simp only [memberLine, ht, Option.map_some, Bundle.goodKey_upTo hk, Option.some.injEq] at h1
    subst h1
    intro h0
    simp only [List.flatten_cons, List.mem_append, List.mem_cons, List.not_mem_nil, or_false] at h0
    rcases h0 with (((h0 | h0) | h0) | h0) | h0
    · exact (hk.1 0 h0).2.2.2.2.2 rfl
    · rcases h0 with h0 | h0 <;> cases h0
    · exact (hg.clean 0 h0).2.2 rfl
    · cases h0
    · exact ih (fun p hp => hm p (by simp [hp])) h2 h0

end Verif.PBundle
