import Verif.Dec.Props
import Verif.Payload.BundleProps
import Verif.Payload.Round
/-!
# Doubles in bundle headers and beside payloads

More claims of C124: the emitter of bundle headers prints doubles as the others do (src/BundleHdrEmitter.cc 105-111), and headers of
payloads are JSON.
-/

namespace Verif.Dec
open Verif Verif.Num Verif.JsonTok Verif.JsonEmit Verif.JsonDrv
open Verif.Bundle (GoodMember GoodKey GoodText ReadBack Scalars allSome memory)

theorem guess_double_text (g : UInt64 → Bytes) (stale : Bool) {p : Nat} (hp : 17 ≤ p) {d : UInt64} (h : nonFinite d = false) :
    Guess.guess ⟨strtod, g⟩ stale (printDouble p d) = .flt d := by
  have hs := print_shape p h
  have := Guess.guess_number ⟨strtod, g⟩ stale (a := []) (t := printDouble p d) (b := [])
    (by simpa using Yaml.word_noNul (Yaml.word_float hs)) nofun nofun (Yaml.number_float hs).1 (Yaml.number_float hs).2
  rw [List.nil_append, List.append_nil] at this
  rw [this]
  exact congrArg Val.flt (double_read_back hp h)

theorem double_text_good (p : Nat) {d : UInt64} (h : nonFinite d = false) :
    GoodText (printDouble p d) ∧ printDouble p d ≠ [] ∧ ∀ c ∈ printDouble p d, isSpace c = false := by
  have hs := print_shape p h
  have hc := Yaml.floatText_chars hs
  have k1 : ∀ c : UInt8, Yaml.WordChar c → c ≠ 124 ∧ c ≠ 35 ∧ c ≠ 10 ∧ c ≠ 0 := Xml.byte_all (by decide +kernel)
  have k2 : ∀ c : UInt8, Yaml.WordChar c → isSpace c = false := Xml.byte_all (by decide +kernel)
  refine ⟨fun c h => k1 c (hc c h), ?_, fun c h => k2 c (hc c h)⟩
  obtain ⟨sg, ip, fp, ex, e, -⟩ := hs
  rw [e]; simp

/-- C124.  A finite double can be a member of a bundle header, and with at least 17 digits it is read back bit for bit. -/
theorem header_double (g : UInt64 → Bytes) {p : Nat} {d : UInt64} (h : nonFinite d = false) :
    GoodMember (printDouble p) (.flt d) ∧ (17 ≤ p → ∀ y, ReadBack (printDouble p) ⟨strtod, g⟩ (.flt d) y → y = .flt d) := by
  obtain ⟨h1, h2, h3⟩ := double_text_good p h
  refine ⟨.scalar rfl h1 (fun c hc => h3 c (List.mem_of_mem_head? hc)) (fun c hc => h3 c (List.mem_of_getLast? hc)), ?_⟩
  intro hp y hy
  cases hy with
  | scalar e hs =>
    cases e
    obtain ⟨st, rfl⟩ := hs
    exact guess_double_text g st hp h

theorem allSome_doubles (p : Nat) : ∀ ds : List UInt64, allSome ((ds.map Val.flt).map (Bundle.scalarText (printDouble p))) =
    some (ds.map (printDouble p))
  | [] => rfl
  | d :: ds => by
    simp only [List.map_cons, allSome, Bundle.scalarText]
    have := allSome_doubles p ds
    rw [this]; rfl

theorem scalars_doubles (g : UInt64 → Bytes) {p : Nat} (hp : 17 ≤ p) : ∀ (ds : List UInt64) (ys : List Val),
    (∀ d ∈ ds, nonFinite d = false) → Scalars ⟨strtod, g⟩ (ds.map (printDouble p)) ys → ys = ds.map Val.flt
  | [], _, _, h => by cases h; rfl
  | d :: ds, _, hd, h => by
    cases h with
    | cons a b =>
      obtain ⟨st, rfl⟩ := a
      rw [guess_double_text g st hp (hd d (by simp)), scalars_doubles g hp ds _ (fun x hx => hd x (by simp [hx])) b]
      rfl

/-- C124.  The same for lists of finite doubles. -/
theorem header_doubles (g : UInt64 → Bytes) {p : Nat} {ds : List UInt64} (h : ∀ d ∈ ds, nonFinite d = false) :
    GoodMember (printDouble p) (.list (ds.map .flt)) ∧
    (17 ≤ p → ∀ y, ReadBack (printDouble p) ⟨strtod, g⟩ (.list (ds.map .flt)) y → y = .list (ds.map .flt)) := by
  refine ⟨.list (allSome_doubles p ds) ?_ ?_, ?_⟩
  · intro t ht
    obtain ⟨d, hd, rfl⟩ := List.mem_map.1 ht
    exact ⟨(double_text_good p (h d hd)).1, (double_text_good p (h d hd)).2.1⟩
  · intro t c ht hc
    obtain ⟨d, hd, rfl⟩ := List.mem_map.1 (List.mem_of_mem_head? ht)
    exact (double_text_good p (h d hd)).2.2 c (List.mem_of_mem_head? hc)
  · intro hp y hy
    cases hy with
    | scalar e _ => cases e
    | list e hs =>
      rw [allSome_doubles] at e
      cases e
      rw [scalars_doubles g hp ds _ h hs]

/-- C124.  A bundle written with at least 17 digits (the default, digits10 + 2) is read back with every finite double and every
list of finite doubles in its header bit for bit. -/
theorem bundle_exact (num : Bytes → Option UInt64) (g : UInt64 → Bytes) {p : Nat} (hp : 17 ≤ p) (stale : Nat → Bool) (before : Nat)
    {m : List (Bytes × Val)} {payload : Bytes} (hs : AMap.Sorted m) (hl : PBundle.HasPayload m payload)
    (h32 : payload.length < 2 ^ 32)
    (hm : ∀ k x, AMap.get m k = some x → k ≠ PBundle.dataKey → k ≠ PBundle.lengthKey → GoodKey k ∧ GoodMember (printDouble p) x)
    (rest : Bytes) :
    ∃ out m' N, PBundle.writeBundle num (printDouble p) PBundle.opts before (.map m) = .ok out ∧
      (∀ k d, AMap.get m k = some (.flt d) → k ≠ PBundle.dataKey → k ≠ PBundle.lengthKey → nonFinite d = false →
        AMap.get m' k = some (.flt d)) ∧
      (∀ k (ds : List UInt64), AMap.get m k = some (.list (ds.map .flt)) → k ≠ PBundle.dataKey → k ≠ PBundle.lengthKey →
        (∀ d ∈ ds, nonFinite d = false) → AMap.get m' k = some (.list (ds.map .flt))) ∧
      ∀ fuel ≥ N, PBundle.readBundle num ⟨strtod, g⟩ stale memory PBundle.peekMemory fuel PBundle.opts (out ++ rest) =
        some (.ok (.map m', rest)) := by
  obtain ⟨out, m', N, h1, h2, h3⟩ := PBundle.bundle_round_trip_partial num (printDouble p) ⟨strtod, g⟩ stale before hs hl h32 hm rest
  refine ⟨out, m', N, h1, ?_, ?_, h3⟩
  · intro k d hk a b hd
    obtain ⟨y, e, hy⟩ := h2.member k _ a b hk
    rw [e, (header_double g hd).2 hp y hy]
  · intro k ds hk a b hd
    obtain ⟨y, e, hy⟩ := h2.member k _ a b hk
    rw [e, (header_doubles g hd).2 hp y hy]

/-- C124.  A payload's header written with at least 17 digits is read back with every finite double in it bit for bit. -/
theorem payload_exact {num num' : Bytes → Option UInt64} (g : UInt64 → Bytes) {c : Cfg} (hp : 17 ≤ c.precision) {w : Nat → Nat}
    {o : Payload.Opts} {m m' : Mach} {v : Val} {segs : List Bytes} (h : Payload.Sound v o segs)
    (hb : m.buf = []) (hw : ∀ i, 32 ≤ w i) (hi : o.ignorePayload = false) (hn : o.payloadLength = none)
    (hpos : segs.flatten ≠ []) (hs : Payload.serializeTo num printDouble c w o m v = .ok m') :
    ∃ v1 bytes, setPath v o.lengthPath (.uint (UInt64.ofNat segs.flatten.length)) = (v1, none) ∧
      m'.out = m.out ++ bytes ∧
      ∀ (gr : Nat → Nat) (calls : Nat) (rest : Bytes),
        (fun r => (r.1, r.2.rem)) <$> Payload.deserializeFrom num' ⟨strtod, g⟩ gr o ⟨bytes ++ rest, calls⟩ =
          .ok (jsonBack v1, rest) := by
  obtain ⟨v1, bytes, h1, -, h3, h4⟩ := Payload.payload_round_trip_partial (num' := num') (float_law g) h hb hw hi hn hpos hs
  rw [readBack_exact g hp] at h4
  exact ⟨v1, bytes, h1, h3, h4⟩

/-! ## Cases -/

/-- A header with 0.1 and a list of -1.5 and the smallest positive double meets the hypotheses. -/
example (g : UInt64 → Bytes) :
    (GoodMember (printDouble 17) (.flt 0x3FB999999999999A) ∧
      ∀ y, ReadBack (printDouble 17) ⟨strtod, g⟩ (.flt 0x3FB999999999999A) y → y = .flt 0x3FB999999999999A) ∧
    GoodMember (printDouble 17) (.list ([0xBFF8000000000000, 1].map .flt)) :=
  ⟨⟨(header_double g (by decide)).1, (header_double g (by decide)).2 (by decide)⟩,
    (header_doubles g (by decide)).1⟩

def sampleBundle : List (Bytes × Val) := [([97], .flt 0x3FB999999999999A), ([112], .list ([0xBFF8000000000000, 1].map .flt))]

example : AMap.Sorted sampleBundle ∧ PBundle.HasPayload sampleBundle [] ∧
    ∀ k x, AMap.get sampleBundle k = some x → k ≠ PBundle.dataKey → k ≠ PBundle.lengthKey →
      GoodKey k ∧ GoodMember (printDouble 17) x := by
  refine ⟨?_, .inr ⟨rfl, rfl⟩, ?_⟩
  · simp only [sampleBundle, AMap.Sorted, AMap.above, List.mem_cons, List.not_mem_nil, or_false, forall_eq, false_implies, implies_true,
      and_true]
    decide
  · intro k x h _ _
    have := AMap.get_mem h
    simp only [sampleBundle, List.mem_cons, List.not_mem_nil, or_false, Prod.mk.injEq] at this
    rcases this with ⟨rfl, rfl⟩ | ⟨rfl, rfl⟩
    · refine ⟨⟨by decide, ?_, by decide⟩, (header_double (fun _ => []) (by decide)).1⟩
      intro x h; cases h; rfl
    · refine ⟨⟨by decide, ?_, by decide⟩, (header_doubles (fun _ => []) (by decide)).1⟩
      intro x h; cases h; rfl

end Verif.Dec
