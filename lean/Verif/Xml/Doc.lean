import Verif.Xml.Read
/-!
# Whole documents
-/

namespace Verif.Xml
open Verif Verif.JsonDrv
open Verif.Build (ETree BState Frame WantsValue receive valueList valueMap insertAll Denotes value_denotes)

variable {fo : FloatOps} {Q : Bool → Prop}

theorem deserialize_run (stale : Nat → Bool) (ns : List RNode) :
    deserialize fo stale ns = run fo stale [.end] true BState.init ns := rfl

/-- What a document of these values comes to: the last one, or null. -/
def LastOf (xs : List ETree) (v : Val) : Prop :=
  xs = [] ∧ v = .null ∨ ∃ i x, xs = i ++ [x] ∧ Denotes x v

theorem valueList_append (a b : List ETree) : valueList (a ++ b) = valueList a ++ valueList b := by
  induction a with
  | nil => rfl
  | cons x a ih => simp only [List.cons_append, valueList, ih]

theorem lastOf (xs : List ETree) : LastOf xs ((valueList xs).getLast?.getD .null) := by
  rcases List.eq_nil_or_concat xs with rfl | ⟨i, x, rfl⟩
  · exact .inl ⟨rfl, rfl⟩
  · rw [List.concat_eq_append, valueList_append]
    refine .inr ⟨i, x, rfl, ?_⟩
    simp only [valueList, List.getLast?_append, List.getLast?_singleton, Option.some_or, Option.getD_some]
    exact value_denotes x

theorem LastOf.unique {xs : List ETree} {v w : Val} (h : LastOf xs v) (h' : LastOf xs w) : v = w := by
  rcases h with ⟨rfl, rfl⟩ | ⟨i, x, rfl, h⟩
  · rcases h' with ⟨_, rfl⟩ | ⟨j, y, e, _⟩
    · rfl
    · simp at e
  · rcases h' with ⟨e, _⟩ | ⟨j, y, e, h'⟩
    · simp at e
    · obtain ⟨-, e⟩ := List.append_inj' e rfl
      cases e
      rw [h.unique, h'.unique]

/-- A `plist` element. -/
theorem plist_run {n : Bytes} {ks : List XTree} {xs : List ETree} (hn : Called n nRoot) (hi : Items fo Q ks xs)
    {pre : List XTree} (hp : Texts pre []) (rest : List RNode) (stale : Nat → Bool) (hQ : ∀ k, Q (stale k)) :
    ∃ xs', Items fo Q ks xs' ∧
      deserialize fo stale (nodesAll pre ++ (XTree.elem n false ks).nodes ++ rest) = .ok ((valueList xs').getLast?.getD .null) := by
  have hq : Seq [.root, .end] [.root .null true] := ⟨_, _, _, _, rfl, rfl, .inl rfl, .inl ⟨_, rfl⟩⟩
  obtain ⟨xs', e', hi', h⟩ := items_run hi [.root, .end] [.root .null true] .null false true
    (later (later stale (nodesAll pre).length) 1) (fun k => hQ _) hq
  refine ⟨xs', hi', ?_⟩
  rw [deserialize_run, List.append_assoc, texts_none hp rfl, XTree.nodes, List.cons_append, List.append_assoc]
  rw [run_loop (st' := [.root, .end]) (e' := true) (b' := ⟨[.root .null true], .null, false⟩)]
  · rw [h, receiveAll_root, List.singleton_append]
    refine run_stop (st' := [.end]) (e' := e') (b' := ⟨[], (valueList xs').getLast?.getD .null, true⟩) ?_ rfl
    rw [node, if_neg (by nofun), called_root hn]
    rfl
  · rw [node, if_neg (by nofun), called_root hn]
    rfl

/-- A bare `dict` or `array`. -/
theorem bare_run {n : Bytes} {em : Bool} {ks : List XTree} {x : ETree} (hx : Says fo Q (.elem n em ks) x)
    (hc : Called n nList ∨ Called n nMap) {pre : List XTree} (hp : Texts pre []) (rest : List RNode) (stale : Nat → Bool)
    (hQ : ∀ k, Q (stale k)) :
    ∃ x', Says fo Q (.elem n em ks) x' ∧ deserialize fo stale (nodesAll pre ++ (XTree.elem n em ks).nodes ++ rest) = .ok x'.value := by
  have hno : ∀ {a : Bytes}, Called n a → a = nList ∨ a = nMap := by
    intro a ha
    rcases hc with h | h
    · exact .inl (ha.symm.trans h)
    · exact .inr (ha.symm.trans h)
  have bad : ∀ {a : Bytes}, Called n a → ¬(a = nList ∨ a = nMap) → False := fun h hn => hn (hno h)
  rw [deserialize_run, List.append_assoc, texts_none hp rfl]
  generalize hS : later stale (nodesAll pre).length = S
  have hQS : ∀ k, Q (S k) := fun k => hS ▸ hQ _
  cases hx with
  | null hn => exact (bad hn (by decide)).elim
  | yes hn => exact (bad hn (by decide)).elim
  | no hn => exact (bad hn (by decide)).elim
  | integer _ hn => exact (bad hn (by decide)).elim
  | real hn => exact (bad hn (by decide)).elim
  | data hn => exact (bad hn (by decide)).elim
  | string hn =>
    rcases hc with h | h
    · exact (hn _ (by simp) h).elim
    · exact (hn _ (by simp) h).elim
  | array hn hk hi =>
    cases em with
    | true =>
      refine ⟨.list [], .array hn hk (by rw [hk rfl]; exact .nil), ?_⟩
      rw [XTree.nodes, List.singleton_append]
      refine run_stop (st' := [.emptyList, .end]) (e' := true) (b' := ⟨[.list [], .root .null false], .null, false⟩) ?_ rfl
      rw [node, if_neg (by nofun), called_list hn]
      rfl
    | false =>
      have hq : Seq [.list, .end] [.list [], .root .null false] := ⟨_, _, _, _, rfl, rfl, .inr rfl, .inr ⟨_, rfl⟩⟩
      obtain ⟨xs', e', hi', h⟩ := items_run hi [.list, .end] [.list [], .root .null false] .null false true (later S 1)
        (fun k => hQS _) hq
      refine ⟨.list xs', .array hn hk hi', ?_⟩
      rw [XTree.nodes, List.cons_append, List.append_assoc]
      rw [run_enter (st' := [.list, .end]) (e' := true) (b' := ⟨[.list [], .root .null false], .null, false⟩)
        (st'' := [.list, .end]) (b'' := ⟨[.list [], .root .null false], .null, false⟩)
        (by rw [node, if_neg (by nofun), called_list hn]; rfl) rfl]
      rw [h, receiveAll_list, List.nil_append, List.singleton_append]
      refine run_stop (st' := [.end]) (e' := e') (b' := ⟨[], (ETree.list xs').value, true⟩) ?_ rfl
      rw [node, if_neg (by nofun), called_list hn]
      rfl
  | dict hn hk hi =>
    cases em with
    | true =>
      refine ⟨.map [], .dict hn hk (by rw [hk rfl]; exact .nil), ?_⟩
      rw [XTree.nodes, List.singleton_append]
      refine run_stop (st' := [.emptyMap, .end]) (e' := true) (b' := ⟨[.map [] none, .root .null false], .null, false⟩) ?_ rfl
      rw [node, if_neg (by nofun), called_map hn]
      rfl
    | false =>
      obtain ⟨xs', e', hi', h⟩ := entries_run hi [.end] [.root .null false] [] .null false true (later S 1) (fun k => hQS _)
      refine ⟨.map xs', .dict hn hk hi', ?_⟩
      rw [XTree.nodes, List.cons_append, List.append_assoc]
      rw [run_enter (st' := [.map, .end]) (e' := true) (b' := ⟨[.map [] none, .root .null false], .null, false⟩)
        (st'' := [.map, .end]) (b'' := ⟨[.map [] none, .root .null false], .null, false⟩)
        (by rw [node, if_neg (by nofun), called_map hn]; rfl) rfl]
      rw [h, List.singleton_append]
      refine run_stop (st' := [.end]) (e' := e') (b' := ⟨[], (ETree.map xs').value, true⟩) ?_ rfl
      rw [node, if_neg (by nofun), called_map hn]
      rfl

/-! ## A document says one thing -/

theorem Texts.unique {ks : List XTree} {a b : List Bytes} (h : Texts ks a) (h' : Texts ks b) : a = b := by
  induction h generalizing b with
  | nil => cases h'; rfl
  | other _ ih => cases h' with | other h' => exact ih h'
  | text _ ih => cases h' with | text h' => rw [ih h']

theorem Content.unique {ks : List XTree} {a b : Bytes} (h : Content ks a) (h' : Content ks b) : a = b := by
  rcases h with h | ⟨h, rfl⟩ <;> rcases h' with h' | ⟨h', rfl⟩
  · exact List.singleton_inj.1 (h.unique h')
  · cases h.unique h'
  · cases h.unique h'
  · rfl

theorem not_both {n a b : Bytes} (h : Called n a) (h' : Called n b) (hab : a ≠ b) : False := hab (h.symm.trans h')

theorem not_elem_text {s : Bytes} {x : ETree} (h : Says fo Q (.text s) x) : False := by cases h
theorem not_elem_other {x : ETree} (h : Says fo Q .other x) : False := by cases h

theorem not_key {n : Bytes} {em : Bool} {ks : List XTree} {x : ETree} (h : Says fo Q (.elem n em ks) x) (hn : Called n nKey) : False := by
  cases h with
  | string h => exact h _ (by simp) hn
  | integer _ h => exact not_both h hn (by decide)
  | null h | yes h | no h | real h | data h | array h | dict h => exact not_both h hn (by decide)

mutual
theorem Says.unique (hQ : ∀ a b, Q a → Q b → a = b) : ∀ {t : XTree} {x y : ETree}, Says fo Q t x → Says fo Q t y → x = y
  | _, _, _, .null hn _ _, h => by
    cases h with
    | null => rfl
    | string h => exact (h _ (by simp) hn).elim
    | integer _ h => exact (not_both h hn (by decide)).elim
    | yes h | no h | real h | data h | array h | dict h => exact (not_both h hn (by decide)).elim
  | _, _, _, .yes hn _ _, h => by
    cases h with
    | yes => rfl
    | string h => exact (h _ (by simp) hn).elim
    | integer _ h => exact (not_both h hn (by decide)).elim
    | null h | no h | real h | data h | array h | dict h => exact (not_both h hn (by decide)).elim
  | _, _, _, .no hn _ _, h => by
    cases h with
    | no => rfl
    | string h => exact (h _ (by simp) hn).elim
    | integer _ h => exact (not_both h hn (by decide)).elim
    | null h | yes h | real h | data h | array h | dict h => exact (not_both h hn (by decide)).elim
  | _, _, _, .integer hq hn ht, h => by
    cases h with
    | integer hq' _ ht' => rw [hQ _ _ hq hq', List.singleton_inj.1 (ht.unique ht')]
    | string h => exact (h _ (by simp) hn).elim
    | null h | yes h | no h | real h | data h | array h | dict h => exact (not_both h hn (by decide)).elim
  | _, _, _, .real hn ht, h => by
    cases h with
    | real _ ht' => rw [List.singleton_inj.1 (ht.unique ht')]
    | string h => exact (h _ (by simp) hn).elim
    | integer _ h => exact (not_both h hn (by decide)).elim
    | null h | yes h | no h | data h | array h | dict h => exact (not_both h hn (by decide)).elim
  | _, _, _, .data hn ht hd _, h => by
    cases h with
    | data _ ht' hd' _ =>
      cases ht.unique ht'
      cases hd.symm.trans hd'
      rfl
    | string h => exact (h _ (by simp) hn).elim
    | integer _ h => exact (not_both h hn (by decide)).elim
    | null h | yes h | no h | real h | array h | dict h => exact (not_both h hn (by decide)).elim
  | _, _, _, .string hn ht, h => by
    cases h with
    | string _ ht' => rw [ht.unique ht']
    | integer _ h => exact (hn _ (by simp) h).elim
    | null h | yes h | no h | real h | data h | array h | dict h => exact (hn _ (by simp) h).elim
  | _, _, _, .array hn _ hi, h => by
    cases h with
    | array _ _ hi' => rw [Items.unique hQ hi hi']
    | string h => exact (h _ (by simp) hn).elim
    | integer _ h => exact (not_both h hn (by decide)).elim
    | null h | yes h | no h | real h | data h | dict h => exact (not_both h hn (by decide)).elim
  | _, _, _, .dict hn _ hi, h => by
    cases h with
    | dict _ _ hi' => rw [Entries.unique hQ hi hi']
    | string h => exact (h _ (by simp) hn).elim
    | integer _ h => exact (not_both h hn (by decide)).elim
    | null h | yes h | no h | real h | data h | array h => exact (not_both h hn (by decide)).elim
theorem Items.unique (hQ : ∀ a b, Q a → Q b → a = b) : ∀ {ks : List XTree} {xs ys : List ETree}, Items fo Q ks xs → Items fo Q ks ys → xs = ys
  | _, _, _, .nil, h => by cases h; rfl
  | _, _, _, .other hi, h => by
    cases h with
    | other h => exact Items.unique hQ hi h
    | elem h => exact (not_elem_other h).elim
  | _, _, _, .text hi, h => by
    cases h with
    | text h => exact Items.unique hQ hi h
    | elem h => exact (not_elem_text h).elim
  | _, _, _, .elem hx hi, h => by
    cases h with
    | elem hx' hi' => rw [Says.unique hQ hx hx', Items.unique hQ hi hi']
    | other => exact (not_elem_other hx).elim
    | text => exact (not_elem_text hx).elim
theorem Entries.unique (hQ : ∀ a b, Q a → Q b → a = b) : ∀ {ks : List XTree} {xs ys : List (Bytes × ETree)}, Entries fo Q ks xs →
    Entries fo Q ks ys → xs = ys
  | _, _, _, .nil, h => by cases h; rfl
  | _, _, _, .other hi, h => by cases h with | other h => exact Entries.unique hQ hi h
  | _, _, _, .text hi, h => by cases h with | text h => exact Entries.unique hQ hi h
  | _, _, _, .key _ hc hv, h => by
    cases h with
    | key _ hc' hv' =>
      cases hc.unique hc'
      exact Value.unique hQ hv hv'
theorem Value.unique (hQ : ∀ a b, Q a → Q b → a = b) : ∀ {k : Bytes} {ks : List XTree} {xs ys : List (Bytes × ETree)},
    Value fo Q k ks xs → Value fo Q k ks ys → xs = ys
  | _, _, _, _, .other hv, h => by
    cases h with
    | other h => exact Value.unique hQ hv h
    | value h => exact (not_elem_other h).elim
  | _, _, _, _, .text hv, h => by
    cases h with
    | text h => exact Value.unique hQ hv h
    | value h => exact (not_elem_text h).elim
  | _, _, _, _, .value hx hi, h => by
    cases h with
    | value hx' hi' => rw [Says.unique hQ hx hx', Entries.unique hQ hi hi']
    | other => exact (not_elem_other hx).elim
    | text => exact (not_elem_text hx).elim
end

end Verif.Xml
