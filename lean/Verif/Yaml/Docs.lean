import Verif.Yaml.ReadProps
import Verif.LoadAll.Props
/-!
# C86 All the documents of a YAML stream
-/

namespace Verif.Yaml
open Verif Verif.JsonDrv
open Verif.LoadAll (Source Values Rest)

/-- The YAML parser as the iterator uses it. -/
def source (fo : FloatOps) (stale : Nat → Bool) : Source Parser :=
  ⟨Parser.done, fun p => parseVariant fo stale (p.rd.evs.length + 1) p⟩

/-- What the documents mean, each on its own. -/
inductive DocsMean (fo : FloatOps) (Q : Bool → Prop) (r : Rule) : List YTree → List Val → Prop
  | nil : DocsMean fo Q r [] []
  | cons {t v env ts vs} : Means fo Q r [] t v env → DocsMean fo Q r ts vs → DocsMean fo Q r (t :: ts) (v :: vs)

theorem rest_docs {fo : FloatOps} {Q : Bool → Prop} {stale : Nat → Bool} (hQ : ∀ n, Q (stale n)) {ts vs} (h : DocsMean fo Q Rule.first ts vs) :
    Rest (source fo stale) ⟨⟨ts.flatMap docEvents ++ [YEv.streamEnd], false⟩, false, false⟩ vs := by
  induction h with
  | nil => exact .last (q := ⟨⟨[], false⟩, true, true⟩) rfl rfl rfl
  | @cons t v env ts vs hm _ ih =>
    refine .more rfl ?_ (.inl rfl) ih
    have := parse_doc hQ hm ((ts.flatMap docEvents ++ [YEv.streamEnd]).length + 1) false (ts.flatMap docEvents ++ [YEv.streamEnd])
    simp only [source, List.flatMap_cons, List.append_assoc]
    rw [← this]
    congr 1
    simp only [List.length_append]
    omega

theorem values_docs {fo : FloatOps} {Q : Bool → Prop} {stale : Nat → Bool} (hQ : ∀ n, Q (stale n)) {ts vs} (h : DocsMean fo Q Rule.first ts vs)
    (hne : ts ≠ []) : Values (source fo stale) (Parser.new (streamOf ts)) vs := by
  cases h with
  | nil => exact absurd rfl hne
  | @cons t v env ts vs hm h =>
    refine .some rfl ?_ (rest_docs hQ h)
    obtain ⟨as, h2⟩ := loop_doc (below := false) hQ hm ((ts.flatMap docEvents ++ [YEv.streamEnd]).length + 1) (ts.flatMap docEvents ++ [YEv.streamEnd])
    simp only [source, parseVariant, Parser.new, streamOf, List.length_cons, Bool.false_eq_true, if_false, List.flatMap_cons, List.append_assoc]
    rw [loop_start, show (docEvents t ++ (ts.flatMap docEvents ++ [YEv.streamEnd])).length + 1 =
      (ts.flatMap docEvents ++ [YEv.streamEnd]).length + 1 + (docEvents t).length by simp only [List.length_append]; omega, h2]
    rfl

/-- C86.  Iterating over a stream of at least one document visits the values of its documents, in order: iterators are
positions in the list of the values.  By the library's rule for anchors, each document on its own. -/
theorem yaml_documents (fo : FloatOps) (Q : Bool → Prop) (stale : Nat → Bool) (hQ : ∀ n, Q (stale n)) (ts : List YTree) (vs : List Val)
    (h : DocsMean fo Q Rule.first ts vs) (hne : ts ≠ []) :
    ∃ s, LoadAll.create (source fo stale) (Parser.new (streamOf ts)) = some (.ok s) ∧
      ∀ ops, LoadAll.run (source fo stale) s ops = some (LoadAll.Spec.run ⟨vs, [some 0]⟩ ops) :=
  LoadAll.iterators_are_positions _ vs (values_docs hQ h hne)

theorem docs_rule {fo : FloatOps} {Q : Bool → Prop} {ts vs} (h : DocsMean fo Q Rule.yaml ts vs)
    (ha : ∀ t ∈ ts, t.anchors.Nodup ∧ t.NoKeyAnchor) : DocsMean fo Q Rule.first ts vs := by
  induction h with
  | nil => exact .nil
  | cons hm _ ih =>
    have := ha _ (.head _)
    exact .cons (means_rule Rule.yaml Rule.first hm this.2 (by simpa using this.1)).1 (ih (fun t ht => ha t (.tail _ ht)))

/-- C86.  The same with YAML's rules, if no document defines an anchor twice or on a key.  Missing: those, and streams
without a document, see `empty_stream_false`. -/
theorem yaml_documents_partial (fo : FloatOps) (Q : Bool → Prop) (stale : Nat → Bool) (hQ : ∀ n, Q (stale n)) (ts : List YTree) (vs : List Val)
    (h : DocsMean fo Q Rule.yaml ts vs) (ha : ∀ t ∈ ts, t.anchors.Nodup ∧ t.NoKeyAnchor) (hne : ts ≠ []) :
    ∃ s, LoadAll.create (source fo stale) (Parser.new (streamOf ts)) = some (.ok s) ∧
      ∀ ops, LoadAll.run (source fo stale) s ops = some (LoadAll.Spec.run ⟨vs, [some 0]⟩ ops) :=
  yaml_documents fo Q stale hQ ts vs (docs_rule h ha) hne

/-- Two documents that use one name for two anchors, the second of them null. -/
example (fo : FloatOps) : DocsMean fo (fun _ => True) Rule.yaml
    [.list [] [.scalar [97] none .double [120], .alias [97]], .scalar [97] none .plain [126]] [.list [.str [120], .str [120]], .null] :=
  .cons (.list (.cons (.scalar (.quoted (.inr (.inl rfl)))) (.cons (.alias rfl) .nil))) (.cons (.scalar (.plain (.inl rfl) (fun _ _ => rfl))) .nil)

/-- C86, finding: a stream without documents has one value, null. -/
theorem empty_stream_false (fo : FloatOps) (stale : Nat → Bool) : Values (source fo stale) (Parser.new (streamOf [])) [.null] :=
  .some (q := ⟨⟨[], false⟩, true, true⟩) rfl rfl (.done rfl)

/-- C86, finding: if a stream breaks off behind a document (or has a syntax error there), the first `Next` throws and
the iterator stays usable, but the second `Next` never returns. -/
theorem broken_stream_hangs (fo : FloatOps) (stale : Nat → Bool) : ∃ s,
    LoadAll.create (source fo stale) (Parser.new (.streamStart :: docEvents (.list [] []))) = some (.ok s) ∧
    LoadAll.run (source fo stale) s [.next 0, .get 0] = some [.throw .runtime, .ok (.val (.list []))] ∧
    LoadAll.run (source fo stale) s [.next 0, .next 0] = none :=
  ⟨⟨⟨⟨[], false⟩, false, false⟩, [⟨.list [], none⟩], [⟨true, some 0⟩]⟩, rfl, rfl, rfl⟩

end Verif.Yaml
