import Verif.Bundle.Run
/-!
# The value a bundle header denotes
-/

namespace Verif.Bundle
open Verif Verif.JsonDrv
open Verif.Build (PEv ETree)

theorem pevs_append (fo : FloatOps) (stale : Nat → Bool) (a b : List BEv) :
    pevs fo stale (a ++ b) = pevs fo stale a ++ pevs fo (fun n => stale (n + a.length)) b := by
  induction a generalizing stale with
  | nil => rfl
  | cons e a ih =>
    simp only [List.cons_append, pevs, ih, List.length_cons]
    have : (fun n => stale (n + a.length + 1)) = fun n => stale (n + (a.length + 1)) := by
      funext n; rw [Nat.add_assoc]
    rw [this]

theorem texts_tree (fo : FloatOps) (ts : List Bytes) : ∀ stale : Nat → Bool, ∃ xs,
    pevs fo stale (ts.map .text) = Build.eventsList xs ∧ Scalars fo ts (Build.valueList xs) := by
  induction ts with
  | nil => intro _; exact ⟨[], rfl, .nil⟩
  | cons t ts ih =>
    intro stale
    obtain ⟨xs, h1, h2⟩ := ih fun n => stale (n + 1)
    refine ⟨.scalar (Guess.guess fo (stale 0) t) :: xs, ?_, .cons ⟨_, rfl⟩ h2⟩
    simp only [List.map_cons, pevs, h1, Build.eventsList, ETree.events, BEv.pev]
    rfl

theorem barAtEnd_iff (raw : Bytes) : barAtEnd raw = true ↔ raw.getLast? = some 124 := by simp [barAtEnd]

theorem value_tree (fo : FloatOps) (stale : Nat → Bool) (raw : Bytes) : ∃ x : ETree,
    pevs fo stale (valueEvs raw) = x.events ∧ Means fo raw x.value := by
  rw [valueEvs]
  have htx := valueText_text raw
  have hp := tokens_pieces (valueText raw)
  by_cases hc : (tokens (valueText raw).length (valueText raw)).length ≤ 1 ∧ barAtEnd raw = false
  · rw [if_pos hc]
    have hb : raw.getLast? ≠ some 124 := fun h => by rw [(barAtEnd_iff raw).2 h] at hc; exact absurd hc.2 (by simp)
    refine ⟨.scalar (Guess.guess fo (stale 0) (oneText (valueText raw))), rfl, ?_⟩
    rcases oneText_spec hc.1 with ⟨h1, h2⟩ | ⟨p, bars, h1, h2, h3, h4⟩
    · rw [h1] at hp
      rw [h2]
      exact .blank htx hp hb ⟨_, rfl⟩
    · rw [h1] at hp
      have htx' : Text raw (oneText (valueText raw) ++ bars) := by rw [← h2]; exact htx
      have hp' : Pieces (oneText (valueText raw) ++ bars) [p] := by rw [← h2]; exact hp
      exact .scalar htx' hp' hb h3 h4 ⟨_, rfl⟩
  · rw [if_neg hc]
    obtain ⟨xs, h1, h2⟩ := texts_tree fo (tokens (valueText raw).length (valueText raw)) fun n => stale (n + 1)
    refine ⟨.list xs, ?_, .list htx hp ?_ h2⟩
    · simp only [pevs, pevs_append, h1, ETree.events, BEv.pev]
    · by_cases hb : barAtEnd raw = true
      · exact .inl ((barAtEnd_iff raw).1 hb)
      · refine .inr ?_
        have : ¬ (tokens (valueText raw).length (valueText raw)).length ≤ 1 := fun h => hc ⟨h, by simpa using hb⟩
        omega

/-- Values that go with fields. -/
inductive MeansAll (fo : FloatOps) : List (Bytes × Bytes) → List (Bytes × Val) → Prop
  | nil : MeansAll fo [] []
  | cons {k raw v fs ws} : Means fo raw v → MeansAll fo fs ws → MeansAll fo ((k, raw) :: fs) ((k, v) :: ws)

theorem fields_tree (fo : FloatOps) (fs : List (Bytes × Bytes)) : ∀ stale : Nat → Bool, ∃ kvs,
    pevs fo stale (fieldEvs fs) = Build.eventsMap kvs ∧ MeansAll fo fs (Build.valueMap kvs) := by
  induction fs with
  | nil => intro _; exact ⟨[], rfl, .nil⟩
  | cons f fs ih =>
    intro stale
    obtain ⟨k, raw⟩ := f
    obtain ⟨x, h1, h2⟩ := value_tree fo (fun n => stale (n + 1)) raw
    obtain ⟨kvs, h3, h4⟩ := ih fun n => stale (n + (valueEvs raw).length + 1)
    refine ⟨(k, x) :: kvs, ?_, .cons h2 h4⟩
    simp only [fieldEvs, pevs, pevs_append, h1, h3, Build.eventsMap, BEv.pev]

theorem meansAll_describes {fo : FloatOps} {fs : List (Bytes × Bytes)} {ws : List (Bytes × Val)} (h : MeansAll fo fs ws) :
    Describes fo fs (Build.insertAll [] ws) := by
  have hnone : ∀ {fs : List (Bytes × Bytes)} {ws : List (Bytes × Val)}, MeansAll fo fs ws → ∀ k, (∀ f ∈ fs, f.1 ≠ k) →
      ∀ m, AMap.Sorted m → AMap.get (Build.insertAll m ws) k = AMap.get m k := by
    intro fs ws h
    induction h with
    | nil => intro k _ m _; rfl
    | cons _ _ ih =>
      intro k hk m hm
      rw [Build.insertAll, ih k (fun f hf => hk f (by simp [hf])) _ (AMap.sorted_set hm _ _)]
      have := hk _ (List.mem_cons_self ..)
      exact AMap.get_set_other _ _ _ _ (fun e => this e.symm)
  refine ⟨Build.sorted_insertAll (m := []) trivial _, fun k hk => ?_, ?_⟩
  · rw [hnone h k hk [] trivial]; rfl
  · have key : ∀ {fs : List (Bytes × Bytes)} {ws : List (Bytes × Val)}, MeansAll fo fs ws → ∀ m, AMap.Sorted m → ∀ a k raw b,
        fs = a ++ (k, raw) :: b → (∀ f ∈ b, f.1 ≠ k) → ∃ v, AMap.get (Build.insertAll m ws) k = some v ∧ Means fo raw v := by
      intro fs ws h
      induction h with
      | nil => intro m _ a k raw b h; cases a <;> cases h
      | @cons k0 raw0 v0 fs0 ws0 h1 h2 ih =>
        intro m hm a k raw b he hb
        cases a with
        | nil =>
          cases he
          exact ⟨v0, by rw [Build.insertAll, hnone h2 _ hb _ (AMap.sorted_set hm _ _), AMap.get_set_self], h1⟩
        | cons f a =>
          cases he
          exact ih _ (AMap.sorted_set hm _ _) a k raw b rfl hb
    exact key h [] trivial

variable {σ : Type} {I : Input σ} {M : Nat} {R : Bytes → Nat → σ → Prop}

/-- The events of fields make the map they describe. -/
theorem deserialize_spec (fo : FloatOps) (stale : Nat → Bool) (hI : Serves I M R) {ls : List Bytes} {s : σ} {content rest : Bytes}
    (hR : R content 0 s) (hl : Lines content ls rest) (hM : content.length + 4096 ≤ M) :
    ∃ v, (∀ fuel, content.length + cost (allFields ls) + 2 ≤ fuel → deserialize fo stale I fuel s = some (.ok v)) ∧
      if content = [] then v = .null else ∃ m, v = .map m ∧ Describes fo (allFields ls) m := by
  have hrun : ∀ fuel, content.length + cost (allFields ls) + 2 ≤ fuel → run I fuel fuel s .start = _ :=
    fun fuel hf => run_start hI hR hl hM (lineFuel := fuel) (by omega) fuel (by omega)
  by_cases hc : content = []
  · simp only [if_pos hc] at hrun ⊢
    refine ⟨.null, fun fuel hf => ?_, rfl⟩
    rw [deserialize, hrun fuel hf]
    rfl
  · simp only [if_neg hc] at hrun ⊢
    obtain ⟨kvs, h1, h2⟩ := fields_tree fo (allFields ls) fun n => stale (n + 2)
    refine ⟨_, fun fuel hf => ?_, _, rfl, meansAll_describes h2⟩
    rw [deserialize, hrun fuel hf]
    have hev : pevs fo stale (.beginDoc :: .beginMap :: (fieldEvs (allFields ls) ++ [.endMap, .endDoc])) =
        .beginDoc :: ((ETree.map kvs).events ++ [.endDoc]) := by
      simp only [pevs, pevs_append, h1, ETree.events, BEv.pev]
      simp
    dsimp only
    rw [hev, Build.build_document fo.fltText _ _ (Build.value_denotes _)]
    rfl

end Verif.Bundle
