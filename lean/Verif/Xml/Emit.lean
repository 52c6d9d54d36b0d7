import Verif.Xml.Doc
/-!
# Writing XML property lists
-/

namespace Verif.Xml
open Verif Verif.JsonDrv
open Verif.Event (Call cstr)

theorem emits_append (ff : UInt64 → Bytes) (e : Em) (a b : List Call) :
    emits ff e (a ++ b) = (do
      let (e, o) ← emits ff e a
      let (e, o') ← emits ff e b
      return (e, o ++ o')) := by
  induction a generalizing e with
  | nil =>
    simp only [List.nil_append, emits, Out.bind_ok]
    cases emits ff e b <;> rfl
  | cons c a ih =>
    simp only [List.cons_append, emits]
    cases emit ff e c with
    | throw x => rfl
    | ub => rfl
    | ok p =>
      obtain ⟨e1, o1⟩ := p
      simp only [Out.bind_ok, ih]
      cases emits ff e1 a with
      | throw x => rfl
      | ub => rfl
      | ok q =>
        obtain ⟨e2, o2⟩ := q
        simp only [Out.bind_ok, Out.pure_eq]
        cases emits ff e2 b with
        | throw x => rfl
        | ub => rfl
        | ok r => simp only [Out.bind_ok, List.append_assoc]

theorem emits_seq {ff : UInt64 → Bytes} {e e' e'' : Em} {a b : List Call} {o o' : List WCall}
    (h : emits ff e a = .ok (e', o)) (h' : emits ff e' b = .ok (e'', o')) : emits ff e (a ++ b) = .ok (e'', o ++ o') := by
  rw [emits_append, h, Out.bind_ok]
  simp only [h', Out.bind_ok]
  rfl

theorem emits_one {ff : UInt64 → Bytes} {e e' : Em} {c : Call} {o : List WCall} (h : emit ff e c = .ok (e', o)) :
    emits ff e [c] = .ok (e', o) := by
  simp only [emits, h, Out.bind_ok, Out.pure_eq, List.append_nil]

/-- The states behind a value. -/
def after : List ES → List ES
  | .value :: r => .key :: r
  | s => s

/-- No key is expected. -/
def NotKey (st : List ES) : Prop := ∃ t r, st = t :: r ∧ t ≠ .key

theorem startElement_value {st : List ES} (h : NotKey st) (d : Nat) (n : Bytes) :
    startElement ⟨st, d⟩ n true = .ok (⟨after st, d + 1⟩, [.start n]) := by
  obtain ⟨t, r, rfl, h⟩ := h
  cases t with
  | key => exact absurd rfl h
  | _ => rfl

theorem leaf_value {st : List ES} (h : NotKey st) (d : Nat) (n : Bytes) (ts : List Bytes) :
    leaf ⟨st, d⟩ n true ts = .ok (⟨after st, d⟩, (WTree.elem n (ts.map .text)).written) := by
  have e : ∀ ts : List Bytes, writtenAll (ts.map .text) = ts.map WCall.text := by
    intro ts
    induction ts with
    | nil => rfl
    | cons t ts ih => simp only [List.map_cons, writtenAll, ih, WTree.written]; rfl
  rw [leaf, startElement_value h, Out.bind_ok, WTree.written, e]
  rfl

theorem leaf_key (r : List ES) (d : Nat) (s : Bytes) :
    leaf ⟨.key :: r, d⟩ nKey false [s] = .ok (⟨.value :: r, d⟩, (WTree.elem nKey [.text s]).written) := rfl

/-- The text of a blob. -/
def blobStr (s : List Bytes) : Bytes :=
  match blobText s with
  | .ok t => t
  | _ => []

theorem toNat_ofNat_small {n : Nat} (h : n < 2 ^ 32) : (UInt32.ofNat n).toNat = n := by
  rw [UInt32.toNat_ofNat']; exact Nat.mod_eq_of_lt h

theorem blobText_ok {s : List Bytes} (h : BlobOk (.blob s)) :
    blobText s = .ok (blobStr s) ∧ B64.encode s 72 = .ok (blobStr s) ∧ 3 * (blobStr s).length < 2 ^ 32 := by
  have hl : (UInt32.ofNat s.flatten.length).toNat = s.flatten.length := toNat_ofNat_small (by have := h.2; omega)
  obtain ⟨t, ht, hf⟩ := B64.encode_fits_partial s (UInt32.ofNat s.flatten.length) 72 h.1 hl.symm (by rw [hl]; have := h.2; omega)
  have h1 : blobText s = .ok t := by
    rw [blobText, show B64.encode s 72 = .ok t from ht, Out.bind_ok, if_pos hf]; rfl
  have h2 : blobStr s = t := by rw [blobStr, h1]
  rw [h2]
  refine ⟨h1, ht, ?_⟩
  rw [B64.toNat_encodeSize _ _ (by rw [hl]; have := h.2; omega), hl, if_pos (by decide)] at hf
  have h72 : (72 : UInt32).toNat = 72 := rfl
  rw [h72] at hf
  have := h.2
  omega

mutual
theorem emits_val (ff : UInt64 → Bytes) : ∀ (v : Val) (st : List ES) (d : Nat), Every BlobOk (fun _ => True) v → NotKey st →
    emits ff ⟨st, d⟩ (Event.valTree v).calls = .ok (⟨after st, d⟩, (plistOf ff blobStr v).written)
  | .null, st, d, _, hk => emits_one (leaf_value hk d nNull [])
  | .bool true, st, d, _, hk => emits_one (leaf_value hk d nTrue [])
  | .bool false, st, d, _, hk => emits_one (leaf_value hk d nFalse [])
  | .int i, st, d, _, hk => emits_one (leaf_value hk d nInteger [intText i.toInt])
  | .uint u, st, d, _, hk => by
    have e : decimal (u.toNat : Int) = natDec u.toNat := by
      rw [decimal, if_neg (by omega)]; rfl
    rw [plistOf, e]
    exact emits_one (leaf_value hk d nInteger [natDec u.toNat])
  | .flt x, st, d, _, hk => emits_one (leaf_value hk d nFloat [ff x])
  | .str s, st, d, _, hk => by
    refine emits_one ?_
    have h := leaf_value hk d nString [cstr s]
    obtain ⟨t, r, rfl, ht⟩ := hk
    cases t with
    | key => exact absurd rfl ht
    | _ => exact h
  | .blob s, st, d, hb, hk => by
    refine emits_one ?_
    show emit ff ⟨st, d⟩ (.blob s) = _
    rw [emit, (blobText_ok hb).1, Out.bind_ok]
    exact leaf_value hk d nBlob [blobStr s]
  | .list xs, st, d, hb, hk => by
    rw [Event.valTree, Event.Tree.calls, plistOf, WTree.written]
    refine emits_seq (a := [_]) (o := [_]) (emits_one (e' := ⟨.list :: after st, d + 1⟩) ?_)
      (emits_seq (emits_items ff xs (after st) (d + 1) hb) (emits_one rfl))
    rw [emit, startElement_value hk, Out.bind_ok]
    rfl
  | .map m, st, d, hb, hk => by
    rw [Event.valTree, Event.Tree.calls, plistOf, WTree.written]
    refine emits_seq (a := [_]) (o := [_]) (emits_one (e' := ⟨.key :: after st, d + 1⟩) ?_)
      (emits_seq (emits_entries ff m (after st) (d + 1) hb) (emits_one rfl))
    rw [emit, startElement_value hk, Out.bind_ok]
    rfl
theorem emits_items (ff : UInt64 → Bytes) : ∀ (xs : List Val) (st : List ES) (d : Nat), EveryList BlobOk (fun _ => True) xs →
    emits ff ⟨.list :: st, d⟩ (Event.callsList (Event.valTrees xs)) = .ok (⟨.list :: st, d⟩, writtenAll (plistItems ff blobStr xs))
  | [], _, _, _ => rfl
  | x :: xs, st, d, h => by
    rw [Event.valTrees, Event.callsList, plistItems, writtenAll]
    exact emits_seq (emits_val ff x (.list :: st) d h.1 ⟨_, _, rfl, by nofun⟩) (emits_items ff xs st d h.2)
theorem emits_entries (ff : UInt64 → Bytes) : ∀ (m : List (Bytes × Val)) (st : List ES) (d : Nat), EveryMap BlobOk (fun _ => True) m →
    emits ff ⟨.key :: st, d⟩ (Event.callsPairs (Event.valPairs m)) = .ok (⟨.key :: st, d⟩, writtenAll (plistEntries ff blobStr m))
  | [], _, _, _ => rfl
  | (k, x) :: m, st, d, h => by
    rw [Event.valPairs, Event.callsPairs, plistEntries, writtenAll, writtenAll, List.append_assoc]
    exact emits_seq (emits_one (leaf_key st d (cstr k)))
      (emits_seq (emits_val ff x (.value :: st) d h.2.1 ⟨_, _, rfl, by nofun⟩) (emits_entries ff m st d h.2.2))
end

theorem serialize_eq (ff : UInt64 → Bytes) {v : Val} (h : Every BlobOk (fun _ => True) v) :
    serialize ff v = .ok (plistOf ff blobStr v).written := by
  rw [serialize, Em.init, emits_val ff v [.none] 0 h ⟨_, _, rfl, by nofun⟩]
  rfl

theorem serializeDoc_eq (ff : UInt64 → Bytes) {v : Val} (h : Every BlobOk (fun _ => True) v) :
    serializeDoc ff v = .ok (WTree.elem nRoot [plistOf ff blobStr v]).written := by
  have h1 : emits ff Em.init (.beginDoc :: (Event.valTree v).calls ++ [.endDoc]) =
      .ok (⟨[.none], 0⟩, [.start nRoot] ++ ((plistOf ff blobStr v).written ++ [.close])) :=
    emits_seq (a := [_]) (e' := ⟨[.none], 1⟩) (emits_one rfl)
      (emits_seq (emits_val ff v [.none] 1 h ⟨_, _, rfl, by nofun⟩) (emits_one rfl))
  rw [serializeDoc, h1]
  simp only [Out.bind_ok, Out.pure_eq, WTree.written, writtenAll, List.append_nil]
  rfl

end Verif.Xml
