import Verif.Args.GenWhole
import Verif.Args.ParseOrder
/-!
# Results of `Parse` satisfy the schema of the parser
-/

namespace Verif.Args
open Verif JsonDrv Schema

theorem parseUInt_type {t : Bytes} {x : Val} (h : parseUInt t = .ok x) : x.ty = .uint := by
  unfold parseUInt at h
  split at h
  · cases h
  · split at h <;> cases h
    rfl

/-- What a word is converted to has the type of the entry. -/
theorem parseArg_type {w : World} {c : Config} (hs : Settings c) (ha : hasArg c.action = true) {t : Text} {x : Val}
    (h : parseArg w c (some t) = .ok x) : OfType c.ty x := by
  unfold parseArg at h
  rw [if_pos ha] at h
  have ht := hs.ty
  simp only [List.mem_cons, List.not_mem_nil, or_false] at ht
  rcases ht with e | e | e | e | e | e <;> rw [e] at h ⊢ <;> dsimp only at h
  · trivial
  · cases h; rfl
  · show x.ty = .int ∨ x.ty = .uint
    unfold parseInt at h
    dsimp only at h
    split at h
    · cases h
    · split at h
      · cases h
      · have key : ∀ (q : Prop) [Decidable q] (y : Val), y.ty = .int → (if q then parseUInt t.bytes else .ok y) = .ok x → x.ty = .int ∨ x.ty = .uint := by
          intro q _ y hy h
          split at h
          · exact .inr (parseUInt_type h)
          · cases h; exact .inl hy
        exact key _ _ rfl h
  · exact .inr (parseUInt_type h)
  · unfold parseFloat at h
    dsimp only at h
    split at h
    · cases h
    · cases h; exact .inr (.inr rfl)
  · cases h; rfl

/-- What an entry has after some words fits it, if it has a value. -/
theorem chain_fits {w : World} {c : Config} (hs : Settings c) {a b : Val} {ws : List (Option Text)} (h : Chain (Says w c) a ws b)
    (ha : a = .null ∨ Fits w c a) : b = .null ∨ Fits w c b := by
  induction h with
  | nil => exact ha
  | cons h _ ih =>
    refine ih ?_
    cases h with
    | store h1 h2 h3 =>
      right; unfold Fits; rw [h1]
      exact ⟨parseArg_type hs (by rw [h1]; rfl) h2, h3⟩
    | first h1 h2 h3 =>
      right; unfold Fits; rw [h1]
      refine ⟨_, rfl, fun x hx => ?_⟩
      cases List.mem_singleton.1 hx
      exact ⟨parseArg_type hs (by rw [h1]; rfl) h2, h3⟩
    | append h1 h2 h3 =>
      right
      rcases ha with ha | ha
      · cases ha
      · unfold Fits at ha ⊢
        rw [h1] at ha ⊢
        obtain ⟨xs, e, h4⟩ := ha
        cases e
        refine ⟨_, rfl, fun x hx => ?_⟩
        rcases List.mem_append.1 hx with hx | hx
        · exact h4 x hx
        · cases List.mem_singleton.1 hx
          exact ⟨parseArg_type hs (by rw [h1]; rfl) h2, h3⟩
    | const h1 h2 => right; unfold Fits; rw [h1]; exact h2
    | yes h1 => right; unfold Fits; rw [h1]; rfl
    | no h1 => right; unfold Fits; rw [h1]; rfl
    | count h1 => right; unfold Fits; rw [h1]; rfl

theorem Plain.pathsApart {w : World} {s : St} (pl : Plain w s) : PathsApart s :=
  fun a b o o' ha hb hne _ _ => pl.apart a b o o' ha hb hne

/-- A value of the result fits its entry. -/
theorem result_fits {w : World} (hp : 64 ≤ w.p) {fuel : Nat} {cs : List Call} {s t : St} {es : List Event} {rest : List Text}
    {v : Val} (hs : Reached cs s.reg) (hc : NoConfig s) (pl : Plain w s) (h : parse w fuel s es rest = some (.returned t v))
    {a : Int32} {o : Opt} {x : Val} (ho : s.entry a = some o) (hx : getPath? v o.path = some x) : Fits w o.cfg x := by
  obtain ⟨o', _, _, _, hn, hr⟩ := (parse_shaped hp hs h pl).at_ a o x ho hx
  obtain ⟨r, hch, h1, h2⟩ := words_in_order_partial hp hs pl.pathsApart hc h ho hr
  have hst := pl.settings a o ho
  by_cases he : r = .null
  · exact pl.defaults a o x ho (h2 he x ⟨hx, hn⟩) hn
  · have hh := (h1 he).1
    rw [hx] at hh; cases hh
    have h0 : start o.cfg = .null ∨ Fits w o.cfg (start o.cfg) := by
      unfold start
      split
      · next e => right; unfold Fits; rw [e]; rfl
      · exact .inl rfl
    exact (chain_fits hst hch h0).resolve_left hn

/-- C99.  What `Parse` returns satisfies the schema the parser generates, for a parser whose entries are stored
apart from each other, whose defaults are values its entries could be given and that reads no configuration file. -/
theorem generated_schema_accepts_partial {w : World} (hp : 64 ≤ w.p) {fuel : Nat} {cs : List Call} {s t : St} {es : List Event} {rest : List Text}
    {v : Val} (hs : Reached cs s.reg) (hc : NoConfig s) (pl : Plain w s) (h : parse w fuel s es rest = some (.returned t v)) :
    ∃ S, generateSchema w s = .ok S ∧ ∀ E, SameWorld w E → validateTop E (recursionLimit + 1) S v = some (.ok ⟨false, false⟩) := by
  obtain ⟨M, hM, hiff⟩ := schema_iff hs pl
  refine ⟨.map M, hM, fun E hE => ?_⟩
  have d := parse_done hp hs h
  have sh := parse_shaped hp hs h pl
  have above : ∀ a o q d, s.entry a = some o → q <+: o.path → q ≠ o.path → getPath? v q = some d → ∃ m, d = .map m ∧ AMap.Sorted m := by
    intro a o q d ho hq hq' hd
    obtain ⟨ks, hks⟩ := exists_kp (pl.keys a o ho)
    obtain ⟨r, rfl, _⟩ := prefix_kp (hks ▸ hq)
    exact sh.above r d hd (.inr ⟨a, o, ho, hq, hq'⟩)
  rw [caller_accept, hiff E v (fun a o q m ho hq hq' hm => by
    obtain ⟨m', e, h1⟩ := above a o q _ ho hq hq' hm
    cases e; exact h1)]
  refine ⟨?_, ?_, ?_, ?_⟩
  · intro a o q d ho hq hq' hd
    obtain ⟨m', rfl, _⟩ := above a o q d ho hq hq' hd
    rfl
  · intro a o x m ho hx hm
    have hl := pl.short a o ho
    refine valueSchema_accepts hp hE (pl.settings a o ho) (result_fits hp hs hc pl h ho hx) ?_ hm (by omega) (by omega)
    rintro xs hact rfl
    obtain ⟨o', h1, h2, h3, _⟩ := sh.at_ a o _ ho hx
    have hck := d.checked a o' h1
    rw [h3, h2] at hck
    refine checkCount_counted hp ?_
    have hck : (if o.cfg.action = .append then checkCount w o.cfg (.list xs) else .ok ()) = .ok () := hck
    rwa [if_pos hact] at hck
  · intro a o ho hreq
    obtain ⟨r, hr⟩ := d.kept a o ho
    have hck := d.checked a _ hr
    by_cases hn : r = .null
    · subst hn
      have hck : refuse o.cfg.required = .ok () := hck
      rw [hreq] at hck; cases hck
    · have := d.value pl.pathsApart hr hn
      have this : getPath? v o.path = some r := this
      rw [this]; rfl
  · intro n g hg hex
    have hfg := finalizeGroups_ok d.grouped (n, g) (by rw [d.groups]; exact hg)
    have hf : (g.members.filter fun a => (getPath? v (pathOf s a)).isSome) = g.members.filter (given t) := by
      refine List.filter_congr fun a ha => ?_
      obtain ⟨o, ho⟩ := (pl.members n g hg).2 a ha
      obtain ⟨r, hr⟩ := d.kept a o ho
      have hpo : pathOf s a = o.path := by unfold pathOf; rw [ho]; rfl
      rw [hpo]
      by_cases hn : r = .null
      · have h1 : given t a = false := by
          cases hg : given t a with
          | false => rfl
          | true => exact absurd hn ((given_iff hr).1 hg)
        rw [h1]
        cases hx : getPath? v o.path with
        | none => rfl
        | some x =>
          obtain ⟨o', h2, _, h3, h4, _⟩ := sh.at_ a o x ho hx
          rw [hr] at h2; cases h2
          exact absurd (h3.symm.trans hn) h4
      · rw [(given_iff hr).2 hn]
        have := d.value pl.pathsApart hr hn
        have this : getPath? v o.path = some r := this
        rw [this]; rfl
    rw [hf]
    unfold finalizeGroup at hfg
    dsimp only at hfg
    rw [if_pos hex] at hfg
    split at hfg
    · cases hfg
    · next hle =>
      refine ⟨by omega, fun hreq => ?_⟩
      rw [hreq, Bool.true_and] at hfg
      cases hl : g.members.filter (given t) with
      | nil => rw [hl] at hfg; cases hfg
      | cons x xs => rw [hl] at hle; simp only [List.length_cons] at hle ⊢; omega

end Verif.Args
