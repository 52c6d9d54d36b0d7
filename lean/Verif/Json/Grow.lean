import Verif.Json.Tok
/-!
# The growable arrays of the tokenizer

`lib/json/JSON_parser.c` keeps the mode stack and the text buffer in arrays that start inside
the parser object and are doubled on the heap.  Every store is checked here: a store outside
the array is undefined behaviour.  Allocation failure is not modelled.  The rest of the
tokenizer model works with the lists these arrays represent; the theorems below say that is
what the arrays contain.
-/

namespace Verif.JsonTok

/-- Checked store. -/
def store (a : List α) (i : Nat) (x : α) : Out (List α) :=
  if i < a.length then .ok (a.set i x) else .ub

/-! ## Text buffer -/

/-- `parse_buffer`, its capacity (the length of `mem`) and `parse_buffer_count`
(lib/json/JSON_parser.c 103-105). -/
structure PBuf where
  mem : List UInt8
  count : Nat
  deriving Repr

/-- The buffer operations of the tokenizer. -/
inductive BOp where
  | push (c : UInt8)
  | pop
  | clear
  | drop (n : Nat)      -- `parse_buffer_count -= n` of decode_unicode_char

/-- `grow_parse_buffer` (lib/json/JSON_parser.c 448-459): twice the capacity, the first `count`
bytes kept (the `realloc` case keeps more), the new bytes arbitrary (`junk`). -/
def PBuf.grow (junk : UInt8) (b : PBuf) : PBuf :=
  { b with mem := b.mem.take b.count ++ List.replicate (2 * b.mem.length - (b.mem.take b.count).length) junk }

/-- `parse_buffer_push_back_char` (lib/json/JSON_parser.c 461-466). -/
def PBuf.push (junk : UInt8) (b : PBuf) (c : UInt8) : Out PBuf := do
  let b := if b.count + 1 ≥ b.mem.length then b.grow junk else b
  let m ← store b.mem b.count c
  let m ← store m (b.count + 1) 0
  return ⟨m, b.count + 1⟩

/-- `parse_buffer_pop_back_char` (353-358) and lines 557-558 of `decode_unicode_char`. -/
def PBuf.drop (b : PBuf) (n : Nat) : Out PBuf :=
  if b.count < n then .ub
  else do
    let m ← store b.mem (b.count - n) 0
    return ⟨m, b.count - n⟩

/-- `parse_buffer_clear` (347-351). -/
def PBuf.clear (b : PBuf) : Out PBuf := do
  let m ← store b.mem 0 0
  return ⟨m, 0⟩

def PBuf.op (junk : UInt8) (b : PBuf) : BOp → Out PBuf
  | .push c => b.push junk c
  | .pop => b.drop 1
  | .clear => b.clear
  | .drop n => b.drop n

/-- `new_JSON_parser` (425-428): the array inside the object, capacity 3500. -/
def PBuf.init : PBuf := ⟨List.replicate 3500 0, 0⟩

def PBuf.run (junk : UInt8) (b : PBuf) : List BOp → Out PBuf
  | [] => .ok b
  | o :: os => do
    let b' ← b.op junk o
    b'.run junk os

/-- What the operations mean on a list; `none` when more is removed than is there. -/
def bopSpec (l : Bytes) : BOp → Option Bytes
  | .push c => some (l ++ [c])
  | .pop => if l = [] then none else some l.dropLast
  | .clear => some []
  | .drop n => if l.length < n then none else some (l.take (l.length - n))

def bopsSpec (l : Bytes) : List BOp → Option Bytes
  | [] => some l
  | o :: os => (bopSpec l o).bind fun l' => bopsSpec l' os

/-- The array holds the list followed by a NUL, and has room for it. -/
def PBuf.Holds (b : PBuf) (l : Bytes) : Prop :=
  b.count = l.length ∧ b.count < b.mem.length ∧ b.mem.take (b.count + 1) = l ++ [0]

theorem take_set_succ {α} (m : List α) (n : Nat) (x : α) (h : n < m.length) :
    (m.set n x).take (n + 1) = m.take n ++ [x] := by
  rw [List.take_succ_eq_append_getElem (by simpa using h)]
  simp [List.take_set_of_le]

theorem Holds.take {b : PBuf} {l : Bytes} (h : b.Holds l) : b.mem.take b.count = l := by
  obtain ⟨h1, h2, h3⟩ := h
  have := congrArg (List.take b.count) h3
  rw [List.take_take] at this
  simpa [h1] using this

theorem store_ok {α} {a : List α} {i : Nat} (x : α) (h : i < a.length) : store a i x = .ok (a.set i x) := by
  simp [store, h]

theorem PBuf.push_holds (junk : UInt8) {b : PBuf} {l : Bytes} (h : b.Holds l) (c : UInt8) :
    ∃ b', b.push junk c = .ok b' ∧ b'.Holds (l ++ [c]) := by
  have ht := Holds.take h
  obtain ⟨h1, h2, h3⟩ := h
  obtain ⟨b1, e1, hc, hl, hk⟩ : ∃ b1 : PBuf, (if b.count + 1 ≥ b.mem.length then b.grow junk else b) = b1 ∧
      b1.count = b.count ∧ b.count + 1 < b1.mem.length ∧ b1.mem.take b.count = l := by
    by_cases hg : b.count + 1 ≥ b.mem.length
    · refine ⟨b.grow junk, by rw [if_pos hg], rfl, ?_, ?_⟩
      · simp only [PBuf.grow, List.length_append, List.length_take, List.length_replicate]; omega
      · simp only [PBuf.grow]
        rw [List.take_append_of_le_length (by simp; omega), ht, h1]; simp
    · exact ⟨b, by rw [if_neg hg], rfl, by omega, ht⟩
  unfold PBuf.push
  simp only [e1]
  rw [store_ok _ (by omega), Out.bind_ok, store_ok _ (by simp; omega), Out.bind_ok]
  refine ⟨_, rfl, by simp [hc, h1], by simp; omega, ?_⟩
  simp only [hc]
  rw [take_set_succ _ _ _ (by simp; omega), take_set_succ _ _ _ (by omega), hk]

theorem PBuf.drop_holds {b : PBuf} {l : Bytes} (h : b.Holds l) (n : Nat) (hn : n ≤ l.length) :
    ∃ b', b.drop n = .ok b' ∧ b'.Holds (l.take (l.length - n)) := by
  have ht := Holds.take h
  obtain ⟨h1, h2, h3⟩ := h
  unfold PBuf.drop
  rw [if_neg (by omega), store_ok _ (by omega), Out.bind_ok]
  refine ⟨_, rfl, by simp; omega, by simp; omega, ?_⟩
  simp only
  rw [take_set_succ _ _ _ (by omega), ← ht, List.take_take]
  simp; omega

/-- C07 (text buffer).  Whatever sequence of operations the tokenizer performs, as long as it
never removes more bytes than are buffered, every store stays inside the array however large
the text is, and the array holds exactly the buffered bytes followed by a NUL. -/
theorem parse_buffer_refines (junk : UInt8) (os : List BOp) (l : Bytes)
    (h : bopsSpec [] os = some l) : ∃ b, PBuf.init.run junk os = .ok b ∧ b.Holds l := by
  have key : ∀ (os : List BOp) (b : PBuf) (l0 l : Bytes), b.Holds l0 → bopsSpec l0 os = some l →
      ∃ b', b.run junk os = .ok b' ∧ b'.Holds l := by
    intro os
    induction os with
    | nil => intro b l0 l hb h; simp [bopsSpec] at h; subst h; exact ⟨b, rfl, hb⟩
    | cons o os ih =>
      intro b l0 l hb h
      simp only [bopsSpec, Option.bind_eq_some_iff] at h
      obtain ⟨l1, h1, h2⟩ := h
      have : ∃ b', b.op junk o = .ok b' ∧ b'.Holds l1 := by
        cases o with
        | push c => simp [bopSpec] at h1; subst h1; exact PBuf.push_holds junk hb c
        | pop =>
          simp only [bopSpec] at h1
          split at h1
          · cases h1
          · rename_i hne
            simp at h1; subst h1
            rw [List.dropLast_eq_take]
            exact PBuf.drop_holds hb 1 (List.length_pos_iff.2 hne)
        | clear =>
          simp [bopSpec] at h1; subst h1
          obtain ⟨_, h2, _⟩ := hb
          show ∃ b', b.clear = .ok b' ∧ _
          unfold PBuf.clear
          rw [store_ok _ (by omega), Out.bind_ok]
          refine ⟨_, rfl, rfl, by simp; omega, ?_⟩
          simp only
          rw [take_set_succ _ _ _ (by omega)]; simp
        | drop n =>
          simp only [bopSpec] at h1
          split at h1
          · cases h1
          · rename_i hne
            simp at h1; subst h1
            exact PBuf.drop_holds hb n (by omega)
      obtain ⟨b1, e1, hb1⟩ := this
      obtain ⟨b2, e2, hb2⟩ := ih b1 l1 l hb1 h2
      exact ⟨b2, by simp [PBuf.run, e1, e2], hb2⟩
  refine key os _ [] l ⟨rfl, ?_, ?_⟩ h
  · show 0 < (List.replicate 3500 (0 : UInt8)).length
    rw [List.length_replicate]; decide
  · show (List.replicate 3500 (0 : UInt8)).take 1 = [0]
    rw [List.take_replicate]; rfl

/-- Four thousand bytes (the buffer is grown once), of which one is removed again. -/
example : ∃ b, PBuf.init.run 7 (List.replicate 4000 (.push 65) ++ [.pop]) = .ok b ∧
    b.Holds (List.replicate 3999 65) := by
  apply parse_buffer_refines
  have : ∀ n l, bopsSpec l (List.replicate n (.push 65) ++ [.pop]) =
      bopSpec (l ++ List.replicate n 65) .pop := by
    intro n
    induction n with
    | zero => intro l; cases h : bopSpec l .pop <;> simp [bopsSpec, h]
    | succ n ih =>
      intro l
      simp only [List.replicate_succ, List.cons_append, bopsSpec, bopSpec, Option.bind_some]
      rw [ih]; simp [bopSpec]
  rw [this]
  simp only [bopSpec, List.nil_append]
  rw [if_neg (by rw [show 4000 = 3999 + 1 from rfl, List.replicate_succ]; exact List.cons_ne_nil _ _),
    List.dropLast_replicate]

/-! ## Mode stack -/

/-- `stack` and `top` (lib/json/JSON_parser.c 98-100); `none` marks a cell never written. -/
structure MStack where
  mem : List (Option Mode)
  top : Int
  deriving Repr

/-- `push` with unlimited depth (lib/json/JSON_parser.c 302-329): `top` is incremented, the
capacity doubled when `top` reaches it, then the mode stored. -/
def MStack.push (s : MStack) (m : Mode) : Out MStack :=
  let top := s.top + 1
  let mem := if top ≥ s.mem.length then s.mem ++ List.replicate s.mem.length none else s.mem
  if top < 0 then .ub
  else do
    let mem' ← store mem top.toNat (some m)
    return ⟨mem', top⟩

/-- `pop` (lib/json/JSON_parser.c 332-343): false (`none`) on underflow or mode mismatch;
reading outside the array or an unwritten cell is undefined behaviour. -/
def MStack.pop (s : MStack) (m : Mode) : Out (Option MStack) :=
  if s.top < 0 then .ok none
  else match s.mem[s.top.toNat]? with
    | some (some m') => if m' = m then .ok (some { s with top := s.top - 1 }) else .ok none
    | _ => .ub

/-- `new_JSON_parser` (401, 417-422): capacity 128, empty, then `push(MODE_DONE)`. -/
def MStack.init : MStack := ⟨List.replicate 128 none, -1⟩

/-- The array holds the list (top first). -/
def MStack.Holds (s : MStack) (l : List Mode) : Prop :=
  s.top + 1 = l.length ∧ l.length ≤ s.mem.length ∧ 0 < s.mem.length ∧
  s.mem.take l.length = l.reverse.map some

inductive MOp where
  | push (m : Mode)
  | pop (m : Mode)

/-- A failed pop leaves the stack alone. -/
def MStack.op (s : MStack) : MOp → Out MStack
  | .push m => s.push m
  | .pop m => do
    match ← s.pop m with
    | some s' => return s'
    | none => return s

def MStack.run (s : MStack) : List MOp → Out MStack
  | [] => .ok s
  | o :: os => do
    let s' ← s.op o
    s'.run os

def mopSpec (l : List Mode) : MOp → List Mode
  | .push m => m :: l
  | .pop m => if l.head? = some m then l.tail else l

/-- C07 (mode stack).  Every sequence of pushes and pops, of any length, stays inside the
array, and the array holds exactly the stack. -/
theorem mode_stack_refines (os : List MOp) :
    ∃ s, MStack.init.run os = .ok s ∧ s.Holds (os.foldl mopSpec []) := by
  have key : ∀ (os : List MOp) (s : MStack) (l : List Mode), s.Holds l →
      ∃ s', s.run os = .ok s' ∧ s'.Holds (os.foldl mopSpec l) := by
    intro os
    induction os with
    | nil => intro s l h; exact ⟨s, rfl, h⟩
    | cons o os ih =>
      intro s l h
      have : ∃ s', s.op o = .ok s' ∧ s'.Holds (mopSpec l o) := by
        obtain ⟨h1, h2, h3, h4⟩ := h
        cases o with
        | push m =>
          have e : s.top + 1 = (l.length : Int) := h1
          obtain ⟨mem, em, hl, ht⟩ : ∃ mem, (if s.top + 1 ≥ (s.mem.length : Int) then
              s.mem ++ List.replicate s.mem.length none else s.mem) = mem ∧ l.length < mem.length ∧
              mem.take l.length = l.reverse.map some := by
            by_cases hg : s.top + 1 ≥ (s.mem.length : Int)
            · refine ⟨_, if_pos hg, by simp; omega, ?_⟩
              rw [List.take_append_of_le_length h2, h4]
            · exact ⟨_, if_neg hg, by omega, h4⟩
          show ∃ s', s.push m = .ok s' ∧ _
          unfold MStack.push
          simp only [em]
          rw [if_neg (by omega), store_ok _ (by omega), Out.bind_ok]
          refine ⟨_, rfl, by simp [mopSpec, e], by simp [mopSpec]; omega, by simp; omega, ?_⟩
          have e2 : (s.top + 1).toNat = l.length := by omega
          simp only [mopSpec, List.length_cons, e2]
          rw [take_set_succ _ _ _ hl, ht]; simp
        | pop m =>
          show ∃ s', (s.pop m >>= _) = .ok s' ∧ _
          unfold MStack.pop
          cases l with
          | nil =>
            simp at h1
            rw [if_pos (by omega), Out.bind_ok]
            exact ⟨s, rfl, by simpa [mopSpec] using h1, by simp [mopSpec], h3, by simp [mopSpec]⟩
          | cons x r =>
            simp only [List.length_cons] at h1 h2 h4
            have e2 : s.top.toNat = r.length := by omega
            have hx : s.mem[r.length]? = some (some x) := by
              have := congrArg (fun z => z[r.length]?) h4
              simp only [List.reverse_cons, List.map_append] at this
              rw [List.getElem?_take_of_lt (by omega)] at this
              rw [this, List.getElem?_append_right (by simp)]
              simp
            rw [if_neg (by omega), e2, hx]
            simp only
            by_cases hm : x = m
            · subst hm
              simp only [if_true, Out.bind_ok]
              refine ⟨_, rfl, by simp [mopSpec]; omega, by simp [mopSpec]; omega, h3, ?_⟩
              have := congrArg (List.take r.length) h4
              rw [List.take_take] at this
              simp only [mopSpec, List.head?_cons, if_true, List.tail_cons]
              rw [show min r.length (r.length + 1) = r.length by omega] at this
              rw [this]
              simp
            · rw [if_neg hm]
              refine ⟨s, rfl, ?_⟩
              simp only [mopSpec, List.head?_cons, Option.some.injEq, hm, if_false]
              exact ⟨by simpa using h1, by simpa using h2, h3, by simpa using h4⟩
      obtain ⟨s1, e1, hs1⟩ := this
      obtain ⟨s2, e2, hs2⟩ := ih s1 _ hs1
      exact ⟨s2, by simp [MStack.run, e1, e2], hs2⟩
  exact key os _ [] ⟨rfl, by simp, by simp [MStack.init], by simp [MStack.init]⟩

/-- Three hundred open containers (the stack is grown twice). -/
example : ∃ s, MStack.init.run (List.replicate 300 (.push .array)) = .ok s ∧
    s.Holds ((List.replicate 300 (.push .array)).foldl mopSpec []) := mode_stack_refines _

end Verif.JsonTok
