import Verif.Yaml.WSpec
import Verif.Base64.Props
import Verif.Xml.Round
/-!
# Writing YAML
-/

namespace Verif.Yaml
open Verif Verif.JsonDrv
open Verif.Event (Call cstr)
open Verif.Xml (Every EveryList EveryMap)

/-! ## Any sequence of calls -/

/-- What has been given to libyaml since the beginning of the document, by what it expects next. -/
inductive Open : List Ctx → List WEv → Prop
  | node (b : Bool) : Open [.node] [.docStart b]
  | docEnd (b : Bool) (t : WNode) : Open [.docEnd] (.docStart b :: t.events)
  | item {c c' pre} (s : CStyle) (xs : List WNode) : Open c pre → afterNode c = some c' →
      Open (.item :: c') (pre ++ .seqStart s :: wEvents xs)
  | key {c c' pre} (s : CStyle) (kvs : List (WNode × WNode)) : Open c pre → afterNode c = some c' →
      Open (.key :: c') (pre ++ .mapStart s :: wPairs kvs)
  | value {c c' pre} (s : CStyle) (kvs : List (WNode × WNode)) (k : WNode) : Open c pre → afterNode c = some c' →
      Open (.value :: c') (pre ++ .mapStart s :: (wPairs kvs ++ k.events))

theorem wEvents_snoc (xs : List WNode) (x : WNode) : wEvents (xs ++ [x]) = wEvents xs ++ x.events := by
  induction xs with
  | nil => simp [wEvents]
  | cons y xs ih => simp only [List.cons_append, wEvents, ih, List.append_assoc]

theorem wPairs_snoc (xs : List (WNode × WNode)) (k x : WNode) : wPairs (xs ++ [(k, x)]) = wPairs xs ++ (k.events ++ x.events) := by
  induction xs with
  | nil => simp [wPairs]
  | cons y xs ih => obtain ⟨a, b⟩ := y; simp only [List.cons_append, wPairs, ih, List.append_assoc]

/-- A whole node. -/
theorem Open.put {c c' pre} (h : Open c pre) (hc : afterNode c = some c') (t : WNode) : Open c' (pre ++ t.events) := by
  cases h with
  | node b => cases hc; exact .docEnd b t
  | docEnd b t => cases hc
  | item s xs ho ha =>
    cases hc
    have := Open.item s (xs ++ [t]) ho ha
    rwa [wEvents_snoc, ← List.cons_append, ← List.append_assoc] at this
  | key s kvs ho ha =>
    cases hc
    have := Open.value s kvs t ho ha
    rwa [← List.cons_append, ← List.append_assoc] at this
  | value s kvs k ho ha =>
    cases hc
    have := Open.key s (kvs ++ [(k, t)]) ho ha
    rw [wPairs_snoc] at this
    simpa only [List.append_assoc, List.cons_append] using this

/-- The emitter between two calls. -/
def Good (e : Em) : Prop :=
  ∃ (ds : List WDoc) (suf : List WEv), e.out = .streamStart :: (ds.flatMap WDoc.events ++ suf) ∧
    (e.inDoc = false ∧ e.ctx = [] ∧ suf = [] ∨ e.inDoc = true ∧ Open e.ctx suf)

theorem good_init : Good Em.init := ⟨[], [], rfl, .inl ⟨rfl, rfl, rfl⟩⟩

theorem give_out {e e' : Em} {w : WEv} (h : give e w = .ok e') :
    accept e.ctx w = some e'.ctx ∧ e'.inDoc = e.inDoc ∧ e'.closed = e.closed ∧ e'.out = e.out ++ [w] := by
  unfold give at h
  split at h
  · cases h; rename_i h; exact ⟨h, rfl, rfl, rfl⟩
  · cases h

theorem endDoc_good {cf : Conf} {e e' : Em} (h : Good e) (hd : e.inDoc = true) (he : endDoc cf e = .ok e') :
    Good e' ∧ e'.inDoc = false ∧ e'.closed = e.closed := by
  obtain ⟨ds, suf, ho, h | h⟩ := h
  · rw [h.1] at hd; cases hd
  · obtain ⟨e1, h1, h2⟩ := Out.bind_eq_ok.1 he
    cases h2
    obtain ⟨ha, hi, hcl, hout⟩ := give_out h1
    refine ⟨?_, rfl, hcl⟩
    have hop := h.2
    cases hc : e.ctx with
    | nil => rw [hc] at ha; cases ha
    | cons x r =>
      rw [hc] at ha hop
      cases x with
      | docEnd =>
        cases hop with
        | docEnd b t =>
          refine ⟨ds ++ [⟨b, cf.implicitEnd, t⟩], [], ?_, .inl ⟨rfl, (Option.some.inj ha).symm, rfl⟩⟩
          simp only [hout, ho, List.flatMap_append, List.flatMap_cons, List.flatMap_nil, WDoc.events, List.append_nil, List.cons_append,
            List.append_assoc]
      | _ => cases ha

theorem beginDoc_good {cf : Conf} {e e' : Em} (h : Good e) (he : beginDoc cf e = .ok e') : Good e' ∧ e'.inDoc = true ∧ e'.closed = e.closed := by
  obtain ⟨e1, h1, h2⟩ := Out.bind_eq_ok.1 he
  obtain ⟨e2, h3, h4⟩ := Out.bind_eq_ok.1 h2
  cases h4
  have hg : Good e1 ∧ e1.inDoc = false ∧ e1.closed = e.closed := by
    unfold outside at h1
    split at h1
    · rename_i hd; exact endDoc_good h hd h1
    · rename_i hd; cases h1; exact ⟨h, by simpa using hd, rfl⟩
  obtain ⟨ha, hi, hcl, hout⟩ := give_out h3
  refine ⟨?_, rfl, by rw [← hg.2.2]; exact hcl⟩
  obtain ⟨ds, suf, ho, h | h⟩ := hg.1
  · obtain ⟨_, hc, rfl⟩ := h
    rw [hc] at ha
    refine ⟨ds, [.docStart cf.implicitBegin], ?_, .inr ⟨rfl, ?_⟩⟩
    · simp only [hout, ho, List.append_nil, List.cons_append]
    · show Open e2.ctx _
      rw [← Option.some.inj ha]
      exact .node _
  · rw [hg.2.1] at h; cases h.1

/-- The events of nodes. -/
def Inner : WEv → Prop
  | .scalar .. => True
  | .seqStart _ => True
  | .seqEnd => True
  | .mapStart _ => True
  | .mapEnd => True
  | _ => False

theorem give_good {e e' : Em} {w : WEv} (h : Good e) (hd : e.inDoc = true) (hw : Inner w) (he : give e w = .ok e') :
    Good e' ∧ e'.inDoc = true ∧ e'.closed = e.closed := by
  obtain ⟨ha, hi, hcl, hout⟩ := give_out he
  refine ⟨?_, by rw [hi, hd], hcl⟩
  obtain ⟨ds, suf, ho, h | ⟨_, hop⟩⟩ := h
  · rw [h.1] at hd; cases hd
  · refine ⟨ds, suf ++ [w], by simp only [hout, ho, List.cons_append, List.append_assoc], .inr ⟨by rw [hi, hd], ?_⟩⟩
    cases w with
    | scalar tag t p q s => exact hop.put ha (.scalar tag t p q s)
    | seqStart s =>
      obtain ⟨c', h1, h2⟩ := Option.map_eq_some_iff.1 ha
      rw [← h2]
      exact .item s [] hop h1
    | mapStart s =>
      obtain ⟨c', h1, h2⟩ := Option.map_eq_some_iff.1 ha
      rw [← h2]
      exact .key s [] hop h1
    | seqEnd =>
      cases hc : e.ctx with
      | nil => rw [hc] at ha; cases ha
      | cons x r =>
        rw [hc] at ha hop
        cases x with
        | item =>
          rw [← Option.some.inj ha]
          cases hop with
          | item s xs hop ha' =>
            have := hop.put ha' (.seq s xs)
            simpa only [WNode.events, List.append_assoc, List.cons_append] using this
        | _ => cases ha
    | mapEnd =>
      cases hc : e.ctx with
      | nil => rw [hc] at ha; cases ha
      | cons x r =>
        rw [hc] at ha hop
        cases x with
        | key =>
          rw [← Option.some.inj ha]
          cases hop with
          | key s xs hop ha' =>
            have := hop.put ha' (.map s xs)
            simpa only [WNode.events, List.append_assoc, List.cons_append] using this
        | _ => cases ha
    | streamStart => cases hw
    | streamEnd => cases hw
    | docStart => cases hw
    | docEnd => cases hw

/-- Within a document, or one is begun. -/
theorem inside_good {cf : Conf} {e e' : Em} (h : Good e) (he : inside cf e = Out.ok e') :
    Good e' ∧ e'.inDoc = true ∧ e'.closed = e.closed := by
  unfold inside at he
  split at he
  · rename_i hd; cases he; exact ⟨h, hd, rfl⟩
  · exact beginDoc_good h he

theorem put_good {cf : Conf} {e e' : Em} {w : WEv} (h : Good e) (hw : Inner w) (he : put cf e w = .ok e') : Good e' ∧ e'.closed = e.closed := by
  unfold put at he
  split at he
  · cases he
  · obtain ⟨e1, h1, h2⟩ := Out.bind_eq_ok.1 he
    obtain ⟨h3, h4, h5⟩ := inside_good h h1
    obtain ⟨h6, _, h7⟩ := give_good h3 h4 hw h2
    exact ⟨h6, by rw [h7, h5]⟩

theorem putScalar_good {utf8 : Bytes → Bool} {cf : Conf} {e e' : Em} {tag t i st} (h : Good e) (he : putScalar utf8 cf e tag t i st = .ok e') :
    Good e' ∧ e'.closed = e.closed := by
  unfold putScalar at he
  split at he
  · cases he
  · obtain ⟨e1, h1, h2⟩ := Out.bind_eq_ok.1 he
    split at h2
    · obtain ⟨h3, h4, h5⟩ := inside_good h h1
      obtain ⟨h6, _, h7⟩ := give_good h3 h4 (w := .scalar tag t i i st) trivial h2
      exact ⟨h6, by rw [h7, h5]⟩
    · cases h2

theorem emit_good {utf8 : Bytes → Bool} {ff : UInt64 → Bytes} {cf : Conf} {e e' : Em} {c : Call} (h : Good e) (he : emit utf8 ff cf e c = .ok e') :
    Good e' ∧ e'.closed = e.closed := by
  cases c with
  | beginDoc =>
    simp only [emit] at he
    split at he
    · cases he
    · obtain ⟨h1, _, h2⟩ := beginDoc_good h he; exact ⟨h1, h2⟩
  | endDoc =>
    simp only [emit] at he
    split at he
    · cases he
    · obtain ⟨e1, h1, h2⟩ := Out.bind_eq_ok.1 he
      obtain ⟨h3, h4, h5⟩ := inside_good h h1
      obtain ⟨h6, _, h7⟩ := endDoc_good h3 h4 h2
      exact ⟨h6, by rw [h7, h5]⟩
  | beginMap _ => exact put_good (w := .mapStart cf.mapStyle) h trivial he
  | endMap => exact put_good (w := .mapEnd) h trivial he
  | beginList _ => exact put_good (w := .seqStart cf.listStyle) h trivial he
  | endList => exact put_good (w := .seqEnd) h trivial he
  | null => exact putScalar_good h he
  | bool b => cases b <;> exact putScalar_good h he
  | str s => exact putScalar_good h he
  | int i => exact putScalar_good h he
  | uint i => exact putScalar_good h he
  | flt d => exact putScalar_good h he
  | blob s =>
    simp only [emit] at he
    split at he
    · cases he
    · obtain ⟨e1, h1, h2⟩ := Out.bind_eq_ok.1 he
      obtain ⟨t, h3, h4⟩ := Out.bind_eq_ok.1 h2
      obtain ⟨h5, _, h6⟩ := inside_good h h1
      obtain ⟨h7, h8⟩ := putScalar_good h5 h4
      exact ⟨h7, by rw [h8, h6]⟩

theorem emits_good {utf8 : Bytes → Bool} {ff : UInt64 → Bytes} {cf : Conf} : ∀ {cs : List Call} {e e' : Em}, Good e →
    emits utf8 ff cf e cs = .ok e' → Good e' ∧ e'.closed = e.closed
  | [], e, e', h, he => by cases he; exact ⟨h, rfl⟩
  | c :: cs, e, e', h, he => by
    obtain ⟨e1, h1, h2⟩ := Out.bind_eq_ok.1 he
    obtain ⟨h3, h4⟩ := emit_good h h1
    obtain ⟨h5, h6⟩ := emits_good h3 h2
    exact ⟨h5, by rw [h6, h4]⟩

theorem close_good {cf : Conf} {e e' : Em} (h : Good e) (hc : e.closed = false) (he : close cf e = .ok e') :
    e'.closed = true ∧ ∃ ds, e'.out = wStream ds := by
  unfold close at he
  rw [hc] at he
  obtain ⟨e1, h1, h2⟩ := Out.bind_eq_ok.1 he
  obtain ⟨e2, h3, h4⟩ := Out.bind_eq_ok.1 h2
  cases h4
  refine ⟨rfl, ?_⟩
  have hg : Good e1 ∧ e1.inDoc = false := by
    unfold outside at h1
    split at h1
    · rename_i hd; have := endDoc_good h hd h1; exact ⟨this.1, this.2.1⟩
    · rename_i hd; cases h1; exact ⟨h, by simpa using hd⟩
  obtain ⟨ds, suf, ho, h | h⟩ := hg.1
  · obtain ⟨_, _, rfl⟩ := h
    refine ⟨ds, ?_⟩
    show e2.out = _
    rw [(give_out h3).2.2.2, ho, wStream, List.append_nil, List.cons_append]
  · rw [hg.2] at h; cases h.1

end Verif.Yaml
