import Verif.Xml.Spec
import Verif.Base64.Props
/-!
# Reading XML property lists
-/

namespace Verif.Xml
open Verif Verif.JsonDrv
open Verif.Build (ETree BState Frame WantsValue receive valueList valueMap insertAll)

theorem called_null {n : Bytes} (h : Called n nNull) : nodeOf n = .null := by
  simp only [nodeOf, same, show n.map lower = nNull from h]; decide
theorem called_true {n : Bytes} (h : Called n nTrue) : nodeOf n = .true := by
  simp only [nodeOf, same, show n.map lower = nTrue from h]; decide
theorem called_false {n : Bytes} (h : Called n nFalse) : nodeOf n = .false := by
  simp only [nodeOf, same, show n.map lower = nFalse from h]; decide
theorem called_integer {n : Bytes} (h : Called n nInteger) : nodeOf n = .integer := by
  simp only [nodeOf, same, show n.map lower = nInteger from h]; decide
theorem called_float {n : Bytes} (h : Called n nFloat) : nodeOf n = .float := by
  simp only [nodeOf, same, show n.map lower = nFloat from h]; decide
theorem called_root {n : Bytes} (h : Called n nRoot) : nodeOf n = .root := by
  simp only [nodeOf, same, show n.map lower = nRoot from h]; decide
theorem called_list {n : Bytes} (h : Called n nList) : nodeOf n = .list := by
  simp only [nodeOf, same, show n.map lower = nList from h]; decide
theorem called_map {n : Bytes} (h : Called n nMap) : nodeOf n = .map := by
  simp only [nodeOf, same, show n.map lower = nMap from h]; decide
theorem called_key {n : Bytes} (h : Called n nKey) : nodeOf n = .key := by
  simp only [nodeOf, same, show n.map lower = nKey from h]; decide
theorem called_blob {n : Bytes} (h : Called n nBlob) : nodeOf n = .blob := by
  simp only [nodeOf, same, show n.map lower = nBlob from h]; decide
theorem stringy {n : Bytes} (h : Stringy n) : nodeOf n = .string := by
  simp only [Stringy, Called, List.mem_cons, List.not_mem_nil, or_false, forall_eq_or_imp, forall_eq] at h
  simp [nodeOf, same, h]

variable {fo : FloatOps} {Q : Bool → Prop}

/-- The state of `errno` after `n` nodes. -/
def later (stale : Nat → Bool) (n : Nat) : Nat → Bool := fun k => stale (k + n)

theorem later_later (stale : Nat → Bool) (a b : Nat) : later (later stale a) b = later stale (a + b) := by
  funext k; simp only [later]; congr 1; omega

theorem later_zero (stale : Nat → Bool) : later stale 0 = stale := rfl

/-- A node after which the inner loop goes on. -/
theorem run_loop {stale : Nat → Bool} {st : List St} {e : Bool} {b : BState} {n : RNode} {ns : List RNode} {st' : List St}
    {e' : Bool} {b' : BState} (h : node fo (stale 0) st e b n = .ok ⟨true, st', e', b'⟩) :
    run fo stale st e b (n :: ns) = run fo (later stale 1) st' e' b' ns := by
  rw [run, h]; rfl

/-- A node after which the outer loop goes on. -/
theorem run_enter {stale : Nat → Bool} {st : List St} {e : Bool} {b : BState} {n : RNode} {ns : List RNode} {st' : List St}
    {e' : Bool} {b' : BState} {st'' : List St} {b'' : BState} (h : node fo (stale 0) st e b n = .ok ⟨false, st', e', b'⟩)
    (h2 : enter fo.fltText st' b' = .ok (.go st'' b'')) :
    run fo stale st e b (n :: ns) = run fo (later stale 1) st'' e' b'' ns := by
  rw [run, h]
  simp only [Out.bind_ok, Bool.false_eq_true, if_false, h2]
  rfl

/-- A node after which reading stops. -/
theorem run_stop {stale : Nat → Bool} {st : List St} {e : Bool} {b : BState} {n : RNode} {ns : List RNode} {st' : List St}
    {e' : Bool} {b' : BState} {v : Val} (h : node fo (stale 0) st e b n = .ok ⟨false, st', e', b'⟩)
    (h2 : enter fo.fltText st' b' = .ok (.stop v)) :
    run fo stale st e b (n :: ns) = .ok v := by
  rw [run, h]
  simp only [Out.bind_ok, Bool.false_eq_true, if_false, h2]

/-- A state in which elements are expected. -/
def Holds (st : List St) : Prop := ∃ t r, st = t :: r ∧ (t = .root ∨ t = .map ∨ t = .list)

theorem enter_holds {ft : UInt64 → Bytes} {st : List St} {b : BState} (h : Holds st) (hb : b.frames ≠ []) :
    enter ft st b = .ok (.go st b) := by
  obtain ⟨t, r, rfl, h⟩ := h
  rcases h with rfl | rfl | rfl <;> rw [enter, if_neg hb]

/-- `run` over `ns` is a number of steps. -/
def Steps (fo : FloatOps) (ns : List RNode) (stale : Nat → Bool) (st : List St) (e : Bool) (b : BState) (st' : List St) (e' : Bool)
    (b' : BState) : Prop :=
  ∀ rest, run fo stale st e b (ns ++ rest) = run fo (later stale ns.length) st' e' b' rest

theorem Steps.nil {stale : Nat → Bool} {st : List St} {e : Bool} {b : BState} : Steps fo [] stale st e b st e b := fun _ => rfl

theorem Steps.append {ns ms : List RNode} {stale : Nat → Bool} {st st' st'' : List St} {e e' e'' : Bool} {b b' b'' : BState}
    (h1 : Steps fo ns stale st e b st' e' b') (h2 : Steps fo ms (later stale ns.length) st' e' b' st'' e'' b'') :
    Steps fo (ns ++ ms) stale st e b st'' e'' b'' := by
  intro rest
  rw [List.append_assoc, h1, h2, later_later, List.length_append]

theorem Steps.other {stale : Nat → Bool} {st : List St} {e : Bool} {b : BState} : Steps fo [.other] stale st e b st e b := fun _ => rfl

theorem Steps.loop {stale : Nat → Bool} {st st' : List St} {e e' : Bool} {b b' : BState} {n : RNode}
    (h : node fo (stale 0) st e b n = .ok ⟨true, st', e', b'⟩) : Steps fo [n] stale st e b st' e' b' :=
  fun _ => run_loop h

theorem Steps.enter {stale : Nat → Bool} {st st' st'' : List St} {e e' : Bool} {b b' b'' : BState} {n : RNode}
    (h : node fo (stale 0) st e b n = .ok ⟨false, st', e', b'⟩) (h2 : enter fo.fltText st' b' = .ok (.go st'' b'')) :
    Steps fo [n] stale st e b st'' e' b'' :=
  fun _ => run_enter h h2

theorem texts_none {ks : List XTree} {ts : List Bytes} (h : Texts ks ts) (h0 : ts = []) (st : List St) (e : Bool) (b : BState) :
    ∀ stale : Nat → Bool, Steps fo (nodesAll ks) stale st e b st e b := by
  induction h with
  | nil => exact fun stale => .nil
  | other _ ih => exact fun stale => Steps.append .other (ih h0 _)
  | text _ _ => cases h0

/-- Texts that are passed over. -/
theorem texts_skip {ks : List XTree} {ts : List Bytes} (h : Texts ks ts) {st : List St} {e : Bool} {b : BState}
    (hs : ∀ q s, node fo q st e b (.text s) = .ok ⟨true, st, e, b⟩) :
    ∀ stale : Nat → Bool, Steps fo (nodesAll ks) stale st e b st e b := by
  induction h with
  | nil => exact fun stale => .nil
  | other _ ih => exact fun stale => Steps.append .other (ih _)
  | text _ ih => exact fun stale => Steps.append (.loop (hs _ _)) (ih _)

/-- One text. -/
theorem texts_one {ks : List XTree} {ts : List Bytes} (h : Texts ks ts) {s : Bytes} (h1 : ts = [s]) (st : List St) (e : Bool)
    (b : BState) : ∀ stale : Nat → Bool, ∃ i, ∀ b', node fo (stale i) st e b (.text s) = .ok ⟨true, st, false, b'⟩ →
      Steps fo (nodesAll ks) stale st e b st false b' := by
  induction h with
  | nil => cases h1
  | other _ ih =>
    intro stale
    obtain ⟨q, h⟩ := ih h1 (later stale 1)
    exact ⟨q + 1, fun b' hb => Steps.append .other (h b' hb)⟩
  | @text s0 ks ts ht ih =>
    intro stale
    cases h1
    exact ⟨0, fun b' hb => Steps.append (.loop hb) (texts_none ht rfl _ _ _ _)⟩

/-! ## Elements -/

theorem wants_ne {fs : List Frame} (h : WantsValue fs) : fs ≠ [] := by rintro rfl; exact h

theorem receive_ne {fs : List Frame} (h : WantsValue fs) (v : Val) : receive fs v ≠ [] := by
  match fs, h with
  | .root a b :: rest, _ => nofun
  | .map m (some k) :: rest, _ => nofun
  | .list xs :: rest, _ => nofun

/-- A value or a key is expected, or the end of a list or map. -/
theorem event_value {ft : UInt64 → Bytes} {fs : List Frame} {r : Val} {d : Bool} (v : Val) (h : WantsValue fs) :
    Build.event ft ⟨fs, r, d⟩ (.scalar v) = .ok ⟨receive fs v, r, d⟩ := by
  obtain ⟨f, rest, rfl⟩ := List.exists_cons_of_ne_nil (wants_ne h)
  exact Build.setTop_receive ft v h

theorem event_key {ft : UInt64 → Bytes} {m : List (Bytes × Val)} {fs : List Frame} {r : Val} {d : Bool} (k : Bytes) :
    Build.event ft ⟨.map m none :: fs, r, d⟩ (.scalar (.str k)) = .ok ⟨.map m (some k) :: fs, r, d⟩ := rfl

/-- An element whose content is one scalar: one text, from which the scalar is read, and the end. -/
theorem leaf_one {n : Bytes} {t : St} (hn : nodeOf n = t) {ks : List XTree} {s : Bytes} (hk : Texts ks [s])
    {b : BState} (hb : b.frames ≠ []) {st : List St}
    (hbegin : ∀ e, beginElement fo.fltText st e b t false = .ok ⟨true, t :: st, true, b⟩) (hs : Holds st)
    (e : Bool) (stale : Nat → Bool) : ∃ i, ∀ b', b'.frames ≠ [] →
      processText fo (stale i) (t :: st) true b s = .ok ⟨true, t :: st, false, b'⟩ →
      endElement fo.fltText (t :: st) false b' t = .ok ⟨false, st, false, b'⟩ →
      Steps fo (XTree.elem n false ks).nodes stale st e b st false b' := by
  obtain ⟨q, h⟩ := texts_one (fo := fo) hk rfl (t :: st) true b (later stale 1)
  refine ⟨q + 1, fun b' hb' h1 h2 => ?_⟩
  have h3 : Steps fo (RNode.elem n false :: nodesAll ks) stale st e b (t :: st) false b' :=
    Steps.append (.loop (by rw [node, if_neg hb, hn]; exact hbegin e)) (h b' (by rw [node, if_neg hb]; exact h1))
  exact Steps.append h3 (.enter (by rw [node, if_neg hb', hn]; exact h2) (enter_holds hs hb'))

/-- An element without texts. -/
theorem leaf_none {n : Bytes} {t : St} (hn : nodeOf n = t) {ks : List XTree} (hk : Texts ks [])
    {b : BState} (hb : b.frames ≠ []) {st : List St}
    (hbegin : ∀ e, beginElement fo.fltText st e b t false = .ok ⟨true, t :: st, true, b⟩) (hs : Holds st)
    (e : Bool) (stale : Nat → Bool) {b' : BState} (hb' : b'.frames ≠ [])
    (h2 : endElement fo.fltText (t :: st) true b t = .ok ⟨false, st, true, b'⟩) :
    Steps fo (XTree.elem n false ks).nodes stale st e b st true b' := by
  have h3 : Steps fo (RNode.elem n false :: nodesAll ks) stale st e b (t :: st) true b :=
    Steps.append (.loop (by rw [node, if_neg hb, hn]; exact hbegin e)) (texts_none hk rfl _ _ _ _)
  exact Steps.append h3 (.enter (by rw [node, if_neg hb, hn]; exact h2) (enter_holds hs hb'))

/-- `null`, `true` and `false`: what is inside does not matter. -/
theorem leaf_word {n : Bytes} {t : St} (hn : nodeOf n = t) {empty : Bool} {ks : List XTree} {ts : List Bytes} (hk : Texts ks ts)
    {b b' : BState} (hb : b.frames ≠ []) (hb' : b'.frames ≠ []) {st : List St}
    (hbegin : ∀ e, beginElement fo.fltText st e b t empty = .ok ⟨!empty, if empty then st else t :: st, e, b'⟩) (hs : Holds st)
    (htext : ∀ q e s, processText fo q (t :: st) e b' s = .ok ⟨true, t :: st, e, b'⟩)
    (hend : ∀ e, endElement fo.fltText (t :: st) e b' t = .ok ⟨false, st, e, b'⟩)
    (e : Bool) (stale : Nat → Bool) : Steps fo (XTree.elem n empty ks).nodes stale st e b st e b' := by
  cases empty with
  | true => exact .enter (by rw [node, if_neg hb, hn]; exact hbegin e) (enter_holds hs hb')
  | false =>
    have h3 : Steps fo (RNode.elem n false :: nodesAll ks) stale st e b (t :: st) e b' :=
      Steps.append (.loop (by rw [node, if_neg hb, hn]; exact hbegin e))
        (texts_skip hk (fun q s => by rw [node, if_neg hb']; exact htext q e s) _)
    exact Steps.append h3 (.enter (by rw [node, if_neg hb', hn]; exact hend e) (enter_holds hs hb'))

theorem begin_content {st : List St} {b : BState} {ft : UInt64 → Bytes} (e : Bool) {t : St}
    (h : t = .integer ∨ t = .float ∨ t = .string ∨ t = .blob ∨ t = .key) :
    beginElement ft st e b t false = .ok ⟨true, t :: st, true, b⟩ := by
  rcases h with rfl | rfl | rfl | rfl | rfl <;> rfl

theorem readBlob_ok {s d : Bytes} (h : B64.decode s = .ok d) (hl : 3 * s.length < 2 ^ 32) : readBlob s = .ok (.blob [d]) := by
  have e : (UInt32.ofNat s.length).toNat = s.length := by
    rw [UInt32.toNat_ofNat']; exact Nat.mod_eq_of_lt (by omega)
  rw [readBlob, h, Out.bind_ok, if_pos (B64.decode_fits_partial s d _ e.symm (by omega) h)]
  rfl

/-- A list or the document: elements one after the other. -/
def Seq (st : List St) (fs : List Frame) : Prop :=
  ∃ t r f rest, st = t :: r ∧ fs = f :: rest ∧ (t = .root ∨ t = .list) ∧
    ((∃ v, f = .root v true) ∨ ∃ xs, f = .list xs)

theorem Seq.holds {st : List St} {fs : List Frame} (h : Seq st fs) : Holds st := by
  obtain ⟨t, r, f, rest, rfl, _, h, _⟩ := h
  exact ⟨t, r, rfl, by rcases h with rfl | rfl <;> simp⟩

theorem Seq.wants {st : List St} {fs : List Frame} (h : Seq st fs) : WantsValue fs := by
  obtain ⟨t, r, f, rest, _, rfl, _, h⟩ := h
  rcases h with ⟨v, rfl⟩ | ⟨xs, rfl⟩
  · exact rfl
  · exact trivial

theorem Seq.receive {st : List St} {fs : List Frame} (h : Seq st fs) (v : Val) : Seq st (receive fs v) := by
  obtain ⟨t, r, f, rest, h1, rfl, h2, h⟩ := h
  rcases h with ⟨w, rfl⟩ | ⟨xs, rfl⟩
  · exact ⟨t, r, _, rest, h1, rfl, h2, .inl ⟨v, rfl⟩⟩
  · exact ⟨t, r, _, rest, h1, rfl, h2, .inr ⟨_, rfl⟩⟩

theorem Seq.text {st : List St} {fs : List Frame} (h : Seq st fs) {r : Val} {d e : Bool} (q : Bool) (s : Bytes) :
    node fo q st e ⟨fs, r, d⟩ (.text s) = .ok ⟨true, st, e, ⟨fs, r, d⟩⟩ := by
  have hne : fs ≠ [] := wants_ne h.wants
  obtain ⟨t, r, f, rest, rfl, _, h, _⟩ := h
  rw [node, if_neg hne]
  rcases h with rfl | rfl <;> rfl

/-- The handlers after the values `vs`. -/
def receiveAll (fs : List Frame) (vs : List Val) : List Frame := vs.foldl receive fs

theorem receiveAll_list (acc : List Val) (fs : List Frame) (vs : List Val) :
    receiveAll (.list acc :: fs) vs = .list (acc ++ vs) :: fs := by
  induction vs generalizing acc with
  | nil => rw [List.append_nil]; rfl
  | cons v vs ih =>
    show receiveAll (.list (acc ++ [v]) :: fs) vs = _
    rw [ih, List.append_assoc, List.singleton_append]

theorem receiveAll_root (v0 : Val) (q : Bool) (fs : List Frame) (vs : List Val) :
    receiveAll (.root v0 q :: fs) vs = .root (vs.getLast?.getD v0) q :: fs := by
  induction vs generalizing v0 with
  | nil => rfl
  | cons v vs ih =>
    show receiveAll (.root v q :: fs) vs = _
    rw [ih]
    cases vs with
    | nil => rfl
    | cons w ws => rw [List.getLast?_cons_cons]; cases h : (w :: ws).getLast? with
      | none => simp at h
      | some x => rfl

theorem end_frame_list {ft : UInt64 → Bytes} {fs : List Frame} {xs : List Val} {r : Val} {d : Bool} (h : WantsValue fs) :
    Build.event ft ⟨.list xs :: fs, r, d⟩ .endList = .ok ⟨receive fs (.list xs), r, d⟩ := by
  obtain ⟨f, rest, rfl⟩ := List.exists_cons_of_ne_nil (wants_ne h)
  exact Build.setTop_receive ft _ h

theorem end_frame_map {ft : UInt64 → Bytes} {fs : List Frame} {m : List (Bytes × Val)} {r : Val} {d : Bool} (h : WantsValue fs) :
    Build.event ft ⟨.map m none :: fs, r, d⟩ .endMap = .ok ⟨receive fs (.map m), r, d⟩ := by
  obtain ⟨f, rest, rfl⟩ := List.exists_cons_of_ne_nil (wants_ne h)
  exact Build.setTop_receive ft _ h

theorem begin_list {ft : UInt64 → Bytes} {st : List St} {e : Bool} {fs : List Frame} {r : Val} {d : Bool} (h : fs ≠ []) (empty : Bool) :
    beginElement ft st e ⟨fs, r, d⟩ .list empty = .ok ⟨false, (if empty then .emptyList else .list) :: st, e, ⟨.list [] :: fs, r, d⟩⟩ := by
  obtain ⟨f, rest, rfl⟩ := List.exists_cons_of_ne_nil h
  rfl

theorem begin_map {ft : UInt64 → Bytes} {st : List St} {e : Bool} {fs : List Frame} {r : Val} {d : Bool} (h : fs ≠ []) (empty : Bool) :
    beginElement ft st e ⟨fs, r, d⟩ .map empty = .ok ⟨false, (if empty then .emptyMap else .map) :: st, e, ⟨.map [] none :: fs, r, d⟩⟩ := by
  obtain ⟨f, rest, rfl⟩ := List.exists_cons_of_ne_nil h
  rfl

theorem Steps.cast {ns ms : List RNode} {stale : Nat → Bool} {st st' : List St} {e e' : Bool} {b b' : BState} (h : ns = ms)
    (hs : Steps fo ns stale st e b st' e' b') : Steps fo ms stale st e b st' e' b' := h ▸ hs

/-- `null`, `true`, `false`. -/
theorem word_run {n : Bytes} {t : St} {v : Val} {em : Bool} {ks : List XTree} {ts : List Bytes} (hn : nodeOf n = t)
    (ht : t = .null ∧ v = .null ∨ t = .true ∧ v = .bool true ∨ t = .false ∧ v = .bool false) (hk : Texts ks ts)
    {st : List St} (hs : Holds st) {fs : List Frame} (hw : WantsValue fs) (r : Val) (d e : Bool) (stale : Nat → Bool) :
    Steps fo (XTree.elem n em ks).nodes stale st e ⟨fs, r, d⟩ st e ⟨receive fs v, r, d⟩ := by
  refine leaf_word hn hk (wants_ne hw) (receive_ne hw v) ?_ hs ?_ ?_ e stale
  · intro e
    rcases ht with ⟨rfl, rfl⟩ | ⟨rfl, rfl⟩ | ⟨rfl, rfl⟩ <;> simp only [beginElement, event_value _ hw, Out.bind_ok] <;> rfl
  · intro q e s
    rcases ht with ⟨rfl, rfl⟩ | ⟨rfl, rfl⟩ | ⟨rfl, rfl⟩ <;> rfl
  · intro e
    rcases ht with ⟨rfl, rfl⟩ | ⟨rfl, rfl⟩ | ⟨rfl, rfl⟩ <;> rfl

mutual
theorem says_run : ∀ {t : XTree} {x : ETree}, Says fo Q t x → ∀ (st : List St) (fs : List Frame) (r : Val) (d e : Bool)
    (stale : Nat → Bool), (∀ k, Q (stale k)) → Holds st → WantsValue fs →
    ∃ x' e', Says fo Q t x' ∧ Steps fo t.nodes stale st e ⟨fs, r, d⟩ st e' ⟨receive fs x'.value, r, d⟩
  | _, _, .null hn hk ht => fun st fs r d e stale hQ hs hw =>
    ⟨_, _, .null hn hk ht, word_run (called_null hn) (.inl ⟨rfl, rfl⟩) ht hs hw _ _ _ _⟩
  | _, _, .yes hn hk ht => fun st fs r d e stale hQ hs hw =>
    ⟨_, _, .yes hn hk ht, word_run (called_true hn) (.inr (.inl ⟨rfl, rfl⟩)) ht hs hw _ _ _ _⟩
  | _, _, .no hn hk ht => fun st fs r d e stale hQ hs hw =>
    ⟨_, _, .no hn hk ht, word_run (called_false hn) (.inr (.inr ⟨rfl, rfl⟩)) ht hs hw _ _ _ _⟩
  | _, _, .integer hq hn ht => fun st fs r d e stale hQ hs hw => by
    obtain ⟨q, h⟩ := leaf_one (fo := fo) (called_integer hn) ht (b := ⟨fs, r, d⟩) (wants_ne hw)
      (fun e => begin_content e (.inl rfl)) hs e stale
    refine ⟨_, _, .integer (hQ q) hn ht, h _ (receive_ne hw _) ?_ rfl⟩
    simp only [processText, event_value _ hw, Out.bind_ok]; rfl
  | _, _, .real hn ht => fun st fs r d e stale hQ hs hw => by
    obtain ⟨q, h⟩ := leaf_one (fo := fo) (called_float hn) ht (b := ⟨fs, r, d⟩) (wants_ne hw)
      (fun e => begin_content e (.inr (.inl rfl))) hs e stale
    refine ⟨_, _, .real hn ht, h _ (receive_ne hw _) ?_ rfl⟩
    simp only [processText, event_value _ hw, Out.bind_ok]; rfl
  | _, _, .data hn ht hd hl => fun st fs r d e stale hQ hs hw => by
    obtain ⟨q, h⟩ := leaf_one (fo := fo) (called_blob hn) ht (b := ⟨fs, r, d⟩) (wants_ne hw)
      (fun e => begin_content e (.inr (.inr (.inr (.inl rfl))))) hs e stale
    refine ⟨_, _, .data hn ht hd hl, h _ (receive_ne hw _) ?_ rfl⟩
    simp only [processText, readBlob_ok hd hl, event_value _ hw, Out.bind_ok]; rfl
  | _, _, .string hn (.inl ht) => fun st fs r d e stale hQ hs hw => by
    obtain ⟨q, h⟩ := leaf_one (fo := fo) (stringy hn) ht (b := ⟨fs, r, d⟩) (wants_ne hw)
      (fun e => begin_content e (.inr (.inr (.inl rfl)))) hs e stale
    refine ⟨_, _, .string hn (.inl ht), h _ (receive_ne hw _) ?_ rfl⟩
    simp only [processText, event_value _ hw, Out.bind_ok]; rfl
  | _, _, .string hn (.inr ⟨ht, h0⟩) => fun st fs r d e stale hQ hs hw => by
    refine ⟨_, _, .string hn (.inr ⟨ht, rfl⟩), leaf_none (stringy hn) ht (b := ⟨fs, r, d⟩) (wants_ne hw)
      (fun e => begin_content e (.inr (.inr (.inl rfl)))) hs e stale (receive_ne hw _) ?_⟩
    simp only [endElement, ne_eq, not_true, if_false, if_true, event_value _ hw, Out.bind_ok, ETree.value]
  | _, _, .array (n := n) (e := em) (ks := ks) hn hk hi => fun st fs r d e stale hQ hs hw => by
    have hne := wants_ne hw
    cases em with
    | true =>
      refine ⟨.list [], e, .array hn hk (by rw [hk rfl]; exact .nil), ?_⟩
      intro rest
      rw [XTree.nodes, List.singleton_append]
      refine run_enter (by rw [node, if_neg hne, called_list hn]; exact begin_list hne true) ?_
      rw [if_pos rfl, enter, if_neg (by nofun)]
      simp only [end_frame_list hw, Out.bind_ok]
      exact enter_holds hs (receive_ne hw _)
    | false =>
      have hq : Seq (.list :: st) (.list [] :: fs) := ⟨_, _, _, _, rfl, rfl, .inr rfl, .inr ⟨_, rfl⟩⟩
      obtain ⟨xs', e', hi', h⟩ := items_run hi (.list :: st) (.list [] :: fs) r d e (later stale 1) (fun k => hQ _) hq
      refine ⟨.list xs', e', .array hn hk hi', ?_⟩
      have h0 : Steps fo [.elem n false] stale st e ⟨fs, r, d⟩ (.list :: st) e ⟨.list [] :: fs, r, d⟩ :=
        .enter (by rw [node, if_neg hne, called_list hn]; exact begin_list hne false) (enter_holds hq.holds (by nofun))
      rw [receiveAll_list, List.nil_append] at h
      have h2 : ∀ stale', Steps fo [.endElem n] stale' (.list :: st) e' ⟨.list (valueList xs') :: fs, r, d⟩ st e'
          ⟨receive fs (ETree.list xs').value, r, d⟩ := fun stale' =>
        .enter (by
          rw [node, if_neg (by nofun), called_list hn]
          simp only [endElement, ne_eq, not_true, if_false, end_frame_list hw, Out.bind_ok]
          rfl) (enter_holds hs (receive_ne hw _))
      exact Steps.cast (by rw [XTree.nodes, List.append_assoc]; rfl) ((h0.append h).append (h2 _))
  | _, _, .dict (n := n) (e := em) (ks := ks) hn hk hi => fun st fs r d e stale hQ hs hw => by
    have hne := wants_ne hw
    cases em with
    | true =>
      refine ⟨.map [], e, .dict hn hk (by rw [hk rfl]; exact .nil), ?_⟩
      intro rest
      rw [XTree.nodes, List.singleton_append]
      refine run_enter (by rw [node, if_neg hne, called_map hn]; exact begin_map hne true) ?_
      rw [if_pos rfl, enter, if_neg (by nofun)]
      simp only [end_frame_map hw, Out.bind_ok]
      exact enter_holds hs (receive_ne hw _)
    | false =>
      have hh : Holds (.map :: st) := ⟨_, _, rfl, .inr (.inl rfl)⟩
      obtain ⟨kvs', e', hi', h⟩ := entries_run hi st fs [] r d e (later stale 1) (fun k => hQ _)
      refine ⟨.map kvs', e', .dict hn hk hi', ?_⟩
      have h0 : Steps fo [.elem n false] stale st e ⟨fs, r, d⟩ (.map :: st) e ⟨.map [] none :: fs, r, d⟩ :=
        .enter (by rw [node, if_neg hne, called_map hn]; exact begin_map hne false) (enter_holds hh (by nofun))
      have h2 : ∀ stale', Steps fo [.endElem n] stale' (.map :: st) e' ⟨.map (insertAll [] (valueMap kvs')) none :: fs, r, d⟩ st e'
          ⟨receive fs (ETree.map kvs').value, r, d⟩ := fun stale' =>
        .enter (by
          rw [node, if_neg (by nofun), called_map hn]
          simp only [endElement, ne_eq, not_true, if_false, end_frame_map hw, Out.bind_ok]
          rfl) (enter_holds hs (receive_ne hw _))
      exact Steps.cast (by rw [XTree.nodes, List.append_assoc]; rfl) ((h0.append h).append (h2 _))
theorem items_run : ∀ {ks : List XTree} {xs : List ETree}, Items fo Q ks xs → ∀ (st : List St) (fs : List Frame) (r : Val)
    (d e : Bool) (stale : Nat → Bool), (∀ k, Q (stale k)) → Seq st fs →
    ∃ xs' e', Items fo Q ks xs' ∧ Steps fo (nodesAll ks) stale st e ⟨fs, r, d⟩ st e' ⟨receiveAll fs (valueList xs'), r, d⟩
  | _, _, .nil => fun st fs r d e stale hQ hq => ⟨[], e, .nil, .nil⟩
  | _, _, .other hi => fun st fs r d e stale hQ hq => by
    obtain ⟨xs', e', hi', h⟩ := items_run hi st fs r d e (later stale 1) (fun k => hQ _) hq
    exact ⟨xs', e', .other hi', Steps.append .other h⟩
  | _, _, .text hi => fun st fs r d e stale hQ hq => by
    obtain ⟨xs', e', hi', h⟩ := items_run hi st fs r d e (later stale 1) (fun k => hQ _) hq
    exact ⟨xs', e', .text hi', Steps.append (.loop (hq.text _ _)) h⟩
  | _, _, .elem (t := t) hx hi => fun st fs r d e stale hQ hq => by
    obtain ⟨x', e1, hx', h1⟩ := says_run hx st fs r d e stale hQ hq.holds hq.wants
    obtain ⟨xs', e', hi', h⟩ := items_run hi st (receive fs x'.value) r d e1 (later stale t.nodes.length) (fun k => hQ _) (hq.receive _)
    exact ⟨x' :: xs', e', .elem hx' hi', Steps.append h1 h⟩
theorem entries_run : ∀ {ks : List XTree} {kvs : List (Bytes × ETree)}, Entries fo Q ks kvs → ∀ (st : List St) (fs : List Frame)
    (m : List (Bytes × Val)) (r : Val) (d e : Bool) (stale : Nat → Bool), (∀ k, Q (stale k)) →
    ∃ kvs' e', Entries fo Q ks kvs' ∧ Steps fo (nodesAll ks) stale (.map :: st) e ⟨.map m none :: fs, r, d⟩ (.map :: st) e'
      ⟨.map (insertAll m (valueMap kvs')) none :: fs, r, d⟩
  | _, _, .nil => fun st fs m r d e stale hQ => ⟨[], e, .nil, .nil⟩
  | _, _, .other hi => fun st fs m r d e stale hQ => by
    obtain ⟨xs', e', hi', h⟩ := entries_run hi st fs m r d e (later stale 1) (fun k => hQ _)
    exact ⟨xs', e', .other hi', Steps.append .other h⟩
  | _, _, .text hi => fun st fs m r d e stale hQ => by
    obtain ⟨xs', e', hi', h⟩ := entries_run hi st fs m r d e (later stale 1) (fun k => hQ _)
    exact ⟨xs', e', .text hi', Steps.append (.loop rfl) h⟩
  | _, _, .key (n := n) (c := c) (k := k) hn (.inl ht) hv => fun st fs m r d e stale hQ => by
    have hh : Holds (.map :: st) := ⟨_, _, rfl, .inr (.inl rfl)⟩
    obtain ⟨q, h⟩ := leaf_one (fo := fo) (called_key hn) ht (b := ⟨.map m none :: fs, r, d⟩) (by nofun)
      (fun e => begin_content e (.inr (.inr (.inr (.inr rfl))))) hh e stale
    have h1 := h ⟨.map m (some k) :: fs, r, d⟩ (by nofun) rfl rfl
    obtain ⟨xs', e', hi', h2⟩ := value_run hv st fs m r d false (later stale (XTree.elem n false c).nodes.length) (fun k => hQ _)
    exact ⟨xs', e', .key hn (.inl ht) hi', Steps.append h1 h2⟩
  | _, _, .key (n := n) (c := c) hn (.inr ⟨ht, h0⟩) hv => fun st fs m r d e stale hQ => by
    have hh : Holds (.map :: st) := ⟨_, _, rfl, .inr (.inl rfl)⟩
    have h1 := leaf_none (fo := fo) (called_key hn) ht (b := ⟨.map m none :: fs, r, d⟩) (by nofun)
      (fun e => begin_content e (.inr (.inr (.inr (.inr rfl))))) hh e stale (b' := ⟨.map m (some []) :: fs, r, d⟩) (by nofun) rfl
    obtain ⟨xs', e', hi', h2⟩ := value_run hv st fs m r d true (later stale (XTree.elem n false c).nodes.length) (fun k => hQ _)
    subst h0
    exact ⟨xs', e', .key hn (.inr ⟨ht, rfl⟩) hi', Steps.append h1 h2⟩
theorem value_run : ∀ {k : Bytes} {ks : List XTree} {kvs : List (Bytes × ETree)}, Value fo Q k ks kvs → ∀ (st : List St)
    (fs : List Frame) (m : List (Bytes × Val)) (r : Val) (d e : Bool) (stale : Nat → Bool), (∀ k, Q (stale k)) →
    ∃ kvs' e', Value fo Q k ks kvs' ∧ Steps fo (nodesAll ks) stale (.map :: st) e ⟨.map m (some k) :: fs, r, d⟩ (.map :: st) e'
      ⟨.map (insertAll m (valueMap kvs')) none :: fs, r, d⟩
  | _, _, _, .other hi => fun st fs m r d e stale hQ => by
    obtain ⟨xs', e', hi', h⟩ := value_run hi st fs m r d e (later stale 1) (fun k => hQ _)
    exact ⟨xs', e', .other hi', Steps.append .other h⟩
  | _, _, _, .text hi => fun st fs m r d e stale hQ => by
    obtain ⟨xs', e', hi', h⟩ := value_run hi st fs m r d e (later stale 1) (fun k => hQ _)
    exact ⟨xs', e', .text hi', Steps.append (.loop rfl) h⟩
  | k, _, _, .value (t := t) hx hi => fun st fs m r d e stale hQ => by
    have hh : Holds (.map :: st) := ⟨_, _, rfl, .inr (.inl rfl)⟩
    obtain ⟨x', e1, hx', h1⟩ := says_run hx (.map :: st) (.map m (some k) :: fs) r d e stale hQ hh trivial
    obtain ⟨xs', e', hi', h⟩ := entries_run hi st fs (AMap.set m k x'.value) r d e1 (later stale t.nodes.length) (fun k => hQ _)
    exact ⟨_, e', .value hx' hi', Steps.append h1 h⟩
end

end Verif.Xml
