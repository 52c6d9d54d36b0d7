import Verif.Json.EmitProps
/-!
# The text of an emitted value, recursively (lemmas for C01, C02, C06)
-/

namespace Verif.JsonEmit

/-- Line break and blanks before an item at depth `d`. -/
def ind (c : Cfg) (d : Nat) : Bytes := text (emitIndent c d)

/-- Text of a scalar. -/
def scalarText (ff : FloatFmt) (c : Cfg) : Val → Out Bytes
  | .null => .ok [0x6e, 0x75, 0x6c, 0x6c]
  | .bool true => .ok [0x74, 0x72, 0x75, 0x65]
  | .bool false => .ok [0x66, 0x61, 0x6c, 0x73, 0x65]
  | .int i => .ok (intDec i.toInt)
  | .uint u => .ok (natDec u.toNat)
  | .flt b =>
    if nonFinite b then
      if c.strict then .throw .runtime else .ok [0x6e, 0x75, 0x6c, 0x6c]
    else .ok (ff c.precision b)
  | .str s => .ok (text (emitString s))
  | .blob segs =>
    if c.strict then .throw .runtime
    else B64.encode segs 0 >>= fun t =>
      if t.length + 1 ≤ (B64.encodeSize (UInt32.ofNat (Blob.totalLength (segs.map (·.length)))) 0).toNat then
        .ok ([0x22, 0x5c, 0x75, 0x30, 0x30, 0x30, 0x30, 0x42, 0x4c, 0x4f, 0x42] ++ t ++ [0x22])
      else .ub
  | .list _ => .ok []
  | .map _ => .ok []

mutual
/-- Text of a value at depth `d`. -/
def body (ff : FloatFmt) (c : Cfg) (d : Nat) : Val → Out Bytes
  | .list xs => (fun b => 0x5b :: b ++ ind c d ++ [0x5d]) <$> bodyList ff c d true xs
  | .map m => (fun b => 0x7b :: b ++ ind c d ++ [0x7d]) <$> bodyMap ff c d true m
  | .null => scalarText ff c .null
  | .bool b => scalarText ff c (.bool b)
  | .int i => scalarText ff c (.int i)
  | .uint u => scalarText ff c (.uint u)
  | .flt b => scalarText ff c (.flt b)
  | .str s => scalarText ff c (.str s)
  | .blob s => scalarText ff c (.blob s)
def bodyList (ff : FloatFmt) (c : Cfg) (d : Nat) (first : Bool) : List Val → Out Bytes
  | [] => .ok []
  | x :: xs => body ff c (d + 1) x >>= fun a => (fun b =>
      (if first then [] else [0x2c]) ++ ind c (d + 1) ++ a ++ b) <$> bodyList ff c d false xs
def bodyMap (ff : FloatFmt) (c : Cfg) (d : Nat) (first : Bool) : List (Bytes × Val) → Out Bytes
  | [] => .ok []
  | (k, x) :: m => body ff c (d + 1) x >>= fun a => (fun b =>
      (if first then [] else [0x2c]) ++ ind c (d + 1) ++ text (emitString k) ++ [0x3a, 0x20] ++ a ++ b) <$>
        bodyMap ff c d false m
end

/-- The text and final stack of a sequence of calls. -/
def emitText (ff : FloatFmt) (c : Cfg) (st : List ES) (ops : List Op) : Out (Bytes × List ES) :=
  (fun r => (text r.1, r.2)) <$> emitOps ff c st ops

theorem emitText_append (ff : FloatFmt) (c : Cfg) (st : List ES) (a b : List Op) :
    emitText ff c st (a ++ b) = (emitText ff c st a >>= fun r =>
      (fun s => (r.1 ++ s.1, s.2)) <$> emitText ff c r.2 b) := by
  unfold emitText
  induction a generalizing st with
  | nil =>
    simp only [List.nil_append, emitOps, Out.map_ok, Out.bind_ok, text_nil]
    cases emitOps ff c st b <;> rfl
  | cons o os ih =>
    simp only [List.cons_append, emitOps]
    cases emitOp ff c st o with
    | throw e => rfl
    | ub => rfl
    | ok r =>
      have := ih r.2
      simp only [Out.bind_ok]
      revert this
      cases emitOps ff c r.2 os with
      | throw e =>
        intro this
        cases h : emitOps ff c r.2 (os ++ b) <;> rw [h] at this <;> simp at this <;> simp [this]
      | ub =>
        intro this
        cases h : emitOps ff c r.2 (os ++ b) <;> rw [h] at this <;> simp at this <;> simp
      | ok r1 =>
        intro this
        simp only [Out.map_ok, Out.bind_ok] at this
        simp only [Out.bind_ok, Out.pure_eq, Out.map_ok]
        cases h : emitOps ff c r.2 (os ++ b) <;> rw [h] at this <;>
          cases h2 : emitOps ff c r1.2 b <;> rw [h2] at this <;> simp at this <;> simp [this]

theorem emitText_cons (ff : FloatFmt) (c : Cfg) (st : List ES) (o : Op) (os : List Op) :
    emitText ff c st (o :: os) = (emitText ff c st [o] >>= fun r =>
      (fun s => (r.1 ++ s.1, s.2)) <$> emitText ff c r.2 os) :=
  emitText_append ff c st [o] os

theorem emitText_one (ff : FloatFmt) (c : Cfg) (st : List ES) (o : Op) :
    emitText ff c st [o] = (fun r => (text r.1, r.2)) <$> emitOp ff c st o := by
  unfold emitText
  cases h : emitOp ff c st o <;> simp [emitOps, h]

/-- The separator text and the stack after it. -/
def sepT (c : Cfg) (st : List ES) : Bytes := text (checkSep c st).1
def sepN (c : Cfg) (st : List ES) : List ES := (checkSep c st).2

theorem sepN_length (c : Cfg) (st : List ES) : (sepN c st).length = st.length := by
  unfold sepN checkSep; split <;> simp

mutual
theorem emit_val (ff : FloatFmt) (c : Cfg) : ∀ (v : Val) (st : List ES),
    emitText ff c st (opsOf v) = (fun b => (sepT c st ++ b, sepN c st)) <$> body ff c st.length v
  | .null, st => by simp [opsOf, emitText_one, emitOp, body, scalarText, sepT, sepN, Chunk.text]
  | .bool true, st => by simp [opsOf, emitText_one, emitOp, body, scalarText, sepT, sepN, Chunk.text]
  | .bool false, st => by simp [opsOf, emitText_one, emitOp, body, scalarText, sepT, sepN, Chunk.text]
  | .int _, st => by simp [opsOf, emitText_one, emitOp, body, scalarText, sepT, sepN, Chunk.text]
  | .uint _, st => by simp [opsOf, emitText_one, emitOp, body, scalarText, sepT, sepN, Chunk.text]
  | .str _, st => by simp [opsOf, emitText_one, emitOp, body, scalarText, sepT, sepN]
  | .flt b, st => by
    simp only [opsOf, emitText_one, emitOp, body, scalarText, sepT, sepN]
    split
    · split <;> simp [Chunk.text]
    · simp [Chunk.text]
  | .blob segs, st => by
    simp only [opsOf, emitText_one, emitOp, body, scalarText, sepT, sepN]
    split
    · rfl
    · cases B64.encode segs 0 with
      | throw e => rfl
      | ub => rfl
      | ok t =>
        simp only [Out.bind_ok]
        split
        · simp [Chunk.text]
        · rfl
  | .list xs, st => by
    simp only [opsOf]
    rw [emitText_cons, emitText_one]
    simp only [emitOp, Out.map_ok, Out.bind_ok]
    have := emit_list ff c xs true (sepN c st)
    simp only [if_true] at this
    rw [show (checkSep c st).2 = sepN c st from rfl, this, sepN_length]
    simp only [body]
    cases bodyList ff c st.length true xs <;> simp [sepT, Chunk.text]
  | .map m, st => by
    simp only [opsOf]
    rw [emitText_cons, emitText_one]
    simp only [emitOp, Out.map_ok, Out.bind_ok]
    have := emit_map ff c m true (sepN c st)
    simp only [if_true] at this
    rw [show (checkSep c st).2 = sepN c st from rfl, this, sepN_length]
    simp only [body]
    cases bodyMap ff c st.length true m <;> simp [sepT, Chunk.text]
theorem emit_list (ff : FloatFmt) (c : Cfg) : ∀ (xs : List Val) (first : Bool) (st : List ES),
    emitText ff c ((if first then .listFirst else .inList) :: st) (opsOfList xs ++ [.endList]) =
      (fun b => (b ++ ind c st.length ++ [0x5d], st)) <$> bodyList ff c st.length first xs
  | [], first, st => by
    simp [opsOfList, emitText_one, emitOp, bodyList, ind, Chunk.text]
  | x :: xs, first, st => by
    simp only [opsOfList, List.append_assoc]
    rw [emitText_append, emit_val ff c x]
    have hN : sepN c ((if first then ES.listFirst else ES.inList) :: st) = .inList :: st := by
      cases first <;> rfl
    have hT : sepT c ((if first then ES.listFirst else ES.inList) :: st) =
        (if first then [] else [0x2c]) ++ ind c (st.length + 1) := by
      cases first <;> simp [sepT, checkSep, ind, Chunk.text]
    rw [hN, hT]
    simp only [List.length_cons, bodyList]
    cases body ff c (st.length + 1) x with
    | throw e => rfl
    | ub => rfl
    | ok a =>
      have := emit_list ff c xs false st
      simp only [Bool.false_eq_true, if_false] at this
      simp only [Out.map_ok, Out.bind_ok, this]
      cases bodyList ff c st.length false xs <;> simp
theorem emit_map (ff : FloatFmt) (c : Cfg) : ∀ (m : List (Bytes × Val)) (first : Bool) (st : List ES),
    emitText ff c ((if first then .mapFirst else .mapKey) :: st) (opsOfMap m ++ [.endMap]) =
      (fun b => (b ++ ind c st.length ++ [0x7d], st)) <$> bodyMap ff c st.length first m
  | [], first, st => by
    simp [opsOfMap, emitText_one, emitOp, bodyMap, ind, Chunk.text]
  | (k, x) :: m, first, st => by
    simp only [opsOfMap, List.append_assoc, List.cons_append]
    rw [emitText_cons, emitText_one]
    simp only [emitOp, Out.map_ok, Out.bind_ok]
    have hN : (checkSep c ((if first then ES.mapFirst else ES.mapKey) :: st)).2 = .mapValue :: st := by
      cases first <;> rfl
    have hT : text (checkSep c ((if first then ES.mapFirst else ES.mapKey) :: st)).1 =
        (if first then [] else [0x2c]) ++ ind c (st.length + 1) := by
      cases first <;> simp [checkSep, ind, Chunk.text]
    rw [text_append, hT, hN, emitText_append, emit_val ff c x]
    have hN' : sepN c (.mapValue :: st) = .mapKey :: st := rfl
    have hT' : sepT c (.mapValue :: st) = [0x3a, 0x20] := rfl
    rw [hN', hT']
    simp only [List.length_cons, bodyMap]
    cases body ff c (st.length + 1) x with
    | throw e => rfl
    | ub => rfl
    | ok a =>
      have := emit_map ff c m false st
      simp only [Bool.false_eq_true, if_false] at this
      simp only [Out.map_ok, Out.bind_ok, this]
      cases bodyMap ff c st.length false m <;> simp
end

/-- The serialised text of a value is its rendering at depth 0. -/
theorem serialize_body (ff : FloatFmt) (c : Cfg) (w : Nat → Nat) (v : Val) :
    serialize ff c w v = body ff c 0 v := by
  have h := emit_val ff c v []
  unfold serialize
  rw [emitter_output_integrity]
  unfold emitText at h
  cases h1 : emitOps ff c [] (opsOf v) <;> rw [h1] at h <;>
    cases h2 : body ff c ([] : List ES).length v <;> rw [h2] at h <;> simp [sepT, checkSep] at h h2 <;>
    simp_all

end Verif.JsonEmit
