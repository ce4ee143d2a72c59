import Verif.Bench.Added
import Verif.Data.WarnSteps
import Verif.Props.Setup
import Verif.Props.BenchFlash

/-
C86: the test that warnings of a benchmark are filed under.
-/

set_option linter.unusedSimpArgs false

namespace Verif.Props.BenchFiled
open Go Verif.Warning Verif.Bench Verif.Data

variable {F : Type} [DecidableEq F]

/-! ### Specification -/

/-- The first line of a text. -/
def firstLine (s : Bytes) : Bytes := s.takeWhile (· != 0x0A)

/-- The first line that the report has of an instance, after its indentation. -/
def shown (i : Instance) : Bytes := if i.text = [] then i.function else i.function ++ b!": " ++ firstLine i.text

/-- A text of which the first line is not blank and has no blanks around it, or none. -/
def Tidy (s : Bytes) : Prop := s = [] ∨ firstLine s ≠ [] ∧ Trim (firstLine s)

/-- The server files the instance under the test: after it has read the first line of the
instance from the output of the benchmarks, the test is this one. -/
def FiledUnder (E : Env) (i : Instance) (tag : Bytes) : Prop :=
  ∀ (p : Bytes), Pre p → ∀ (lookup : Map Bytes Bytes) (st : PState), st.handler ≠ [] →
    ∃ st', bodyTop E b!"Bench" lookup (p ++ b!"         " ++ shown i) st = .inl (.next st') ∧ st'.test = b!"Bench." ++ tag ∧
      st'.inst.map DInst.tag = some tag ∧ st'.handler = st.handler

/-- A name of a handler in the name of its benchmark function. -/
structure HandlerWord (x : Bytes) : Prop where
  word : Word x
  bench : ¬ b!"Benchmark" <+: x
  test : ¬ b!"Test" <+: x
  line : ∀ t, x ≠ 0x5F :: t

/-- The benchmarks that look for fields in parts of the record, and the parts. -/
def parts : List (Bytes × Bytes) :=
  [(b!"WithAttrsSimple", b!"Basic"), (b!"WithAttrsSimple", b!"With"), (b!"WithAttrsAttributes", b!"Basic"), (b!"WithAttrsAttributes", b!"All"),
   (b!"WithAttrsAttributes", b!"With"), (b!"WithAttrsKeyValues", b!"Basic"), (b!"WithAttrsKeyValues", b!"All"), (b!"WithAttrsKeyValues", b!"With"),
   (b!"WithGroupAttributes", b!"Basic"), (b!"WithGroupAttributes", b!"All"), (b!"WithGroupKeyValues", b!"Basic"), (b!"WithGroupKeyValues", b!"All")]

/-- Where a warning `k` of the benchmark `n` of the handler `x` is filed. -/
inductive Place (x n : Bytes) : Bytes → Bytes → Prop
  | error : Place x n b!"TestError" x
  | unused : Place x n b!"Unused" x
  | disabled : n = b!"Disabled" → Place x n b!"NotDisabled" x
  | large : n = b!"BigGroup" ∨ n = b!"Logging" → Place x n b!"Mismatch" x
  | simple : n = b!"Simple" → Place x n b!"Mismatch" n
  | whole {k : Bytes} : n ∈ [b!"SimpleSource", b!"Attributes", b!"KeyValues"] → k = b!"Mismatch" ∨ k = b!"StringAny" → Place x n k n
  | source {k : Bytes} : n = b!"SimpleSource" → k = b!"SourceKey" ∨ k = b!"SourceCaller" → Place x n k n
  | part {k part : Bytes} : (n, part) ∈ parts → k = b!"Mismatch" ∨ k = b!"StringAny" →
      Place x n k (n ++ b!":" ++ part)

/-- C86 as stated: whatever a benchmark's check adds is filed under the benchmark. -/
def C86_statement (F : Type) [DecidableEq F] : Prop := ∀ (E : Env), LowersLib E.lib → ∀ (L : Lib F) (x : Bytes), HandlerWord x → L.fn = b!"Benchmark" ++ x →
  ∀ (N : Nums F) (now : Nat) (rand : Nat → Fin 5) (logData : List (List Slog.Attr)), ∀ bm ∈ benchmarks L N now rand logData,
  ∀ (captured : Bytes) (m m' : Manager) (e : Option Err), bm.check captured m = some (m', e) → ∀ k,
  ∀ i ∈ (instancesOf m' k).drop (instancesOf m k).length, Tidy i.text → FiledUnder E i bm.name

/-! ### Proof -/

theorem filed {E : Env} {i : Instance} {f T tag : Bytes} (hF : FnName E.lib f T) (hT : Trim T)
    (hs : shown i = if T = [] then f else f ++ b!": " ++ T) (ht : testTag f = tag) : FiledUnder E i tag := by
  intro p hp lookup st hh
  rw [hs]
  refine ⟨_, top_inst hp hh hF hT, ?_, ?_, ?_⟩
  · show (if b!"Bench" ≠ [] then b!"Bench" ++ b!"." ++ testTag f else testTag f) = _
    rw [if_pos (by decide), ht]; rfl
  · show some (testTag f) = _
    rw [ht]
  · show (saveInstance E st).handler = st.handler
    unfold saveInstance
    split
    · rfl
    · split <;> rfl

theorem trim_nil : Trim [] := ⟨by simp, by simp, by simp⟩

theorem trim_word {s : Bytes} (h : Word s) : Trim s := by
  have hs : ∀ a ∈ s, isS a = false := fun a ha => by simpa [isNS] using h a ha
  refine ⟨fun a t e => hs a (by rw [e]; simp), fun a t e => hs a (by rw [e]; simp), fun a ha => ?_⟩
  have := hs a ha
  unfold isDot
  simp only [bne_iff_ne, ne_eq]
  rintro rfl
  revert this; decide

/-- A name as the checks have them. -/
structure PlainName (f : Bytes) : Prop where
  word : Word f
  start : ∃ a t, f = a :: t ∧ a ≠ 0x7B ∧ a ≠ 0x2B ∧ a ≠ 0x3A
  tag : testTag f = f

theorem PlainName.fn {f : Bytes} (h : PlainName f) {L : Verif.Replace.Lib} {T : Bytes} (ha : T = [] → f ≠ b!"None" ∧ parseLevel L f = none) :
    FnName L f T := by
  obtain ⟨a, t, e, h1⟩ := h.start
  refine ⟨h.word, by rw [e]; simp, fun b t' e' => ?_, ha⟩
  rw [e] at e'
  cases e'
  exact h1

/-- The names that stand alone on their lines. -/
def alone : List Bytes :=
  [b!"Simple", b!"SimpleSource", b!"Attributes", b!"KeyValues", b!"WithAttrsSimple", b!"WithAttrsAttributes", b!"WithAttrsKeyValues",
   b!"WithGroupKeyValues", b!"With_Group_Attributes"]

set_option maxRecDepth 100000 in
theorem alone_plain : ∀ f ∈ alone, PlainName f := by
  intro f hf
  simp only [alone, List.mem_cons, List.not_mem_nil, or_false] at hf
  rcases hf with rfl | rfl | rfl | rfl | rfl | rfl | rfl | rfl | rfl <;>
    exact ⟨by unfold Word; decide, ⟨_, _, rfl, by decide⟩, by decide +kernel⟩

theorem alone_level {L : Verif.Replace.Lib} (hL : LowersLib L) : ∀ f ∈ alone, f ≠ b!"None" ∧ parseLevel L f = none := by
  obtain ⟨low, hL⟩ := hL
  intro f hf
  refine ⟨fun e => by rw [e] at hf; revert hf; decide, ?_⟩
  cases h : parseLevel L f with
  | none => rfl
  | some l =>
    obtain ⟨s, hs, hr⟩ := (Verif.Props.WarnText.C32_parse_any_text hL _ _).1 h
    exfalso
    simp only [alone, List.mem_cons, List.not_mem_nil, or_false] at hf
    rcases hf with rfl | rfl | rfl | rfl | rfl | rfl | rfl | rfl | rfl <;> cases hs <;>
      (cases hr with | letter h1 h2 => first
        | (revert h1; decide)
        | (cases h2 with | letter h1 h2 => revert h1; decide))

theorem joinComma_word : ∀ {fs : List Bytes}, fs ≠ [] → (∀ f ∈ fs, f ≠ [] ∧ Word f) → joinComma fs ≠ [] ∧ Word (joinComma fs)
  | [f], _, h => h f (by simp)
  | f :: g :: l, _, h => by
    obtain ⟨h1, h2⟩ := joinComma_word (fs := g :: l) (by simp) fun f hf => h f (by simp [hf])
    refine ⟨by simp [joinComma], ?_⟩
    intro a ha
    simp only [joinComma, List.mem_append, List.mem_cons] at ha
    rcases ha with ha | rfl | ha
    · exact (h f (by simp)).2 a ha
    · decide
    · exact h2 a ha

/-- Keys that are words. -/
abbrev WordKey (k : Bytes) : Prop := k ≠ [] ∧ Word k

/-- A list of fields after a name. -/
theorem filed_fields {E : Env} {i : Instance} {name : Bytes} {fs : List Bytes} (hn : PlainName name) (ht : i.text = [])
    (h0 : fs ≠ []) (hw : ∀ f ∈ fs, WordKey f ∨ ∃ g, WordKey g ∧ f = 0x22 :: (g ++ [0x22])) (hf : i.function = name ++ b!": " ++ joinComma fs) :
    FiledUnder E i name := by
  have hw' : ∀ f ∈ fs, f ≠ [] ∧ Word f := by
    intro f hm
    rcases hw f hm with h | ⟨g, hg, rfl⟩
    · exact h
    · refine ⟨by simp, fun a ha => ?_⟩
      simp only [List.mem_cons, List.mem_append, List.not_mem_nil, or_false] at ha
      rcases ha with rfl | ha | rfl
      · decide
      · exact hg.2 a ha
      · decide
  obtain ⟨h1, h2⟩ := joinComma_word h0 hw'
  refine filed (T := joinComma fs) (hn.fn fun e => absurd e h1) (trim_word h2) ?_ hn.tag
  rw [if_neg h1, shown, if_pos ht, hf]

/-- A name alone. -/
theorem filed_alone {E : Env} (hL : LowersLib E.lib) {i : Instance} {name : Bytes} (hn : name ∈ alone) (ht : i.text = []) (hf : i.function = name) :
    FiledUnder E i name := by
  refine filed (T := []) ((alone_plain name hn).fn fun _ => alone_level hL name hn) trim_nil ?_ (alone_plain name hn).tag
  rw [if_pos rfl, shown, if_pos ht, hf]

theorem cut_none {s : Bytes} (h1 : ¬ b!"Benchmark" <+: s) (h2 : ¬ b!"Test" <+: s) :
    cutOnce s [b!"Benchmark_", b!"Benchmark", b!"Test_", b!"Test"] = (s, false) := by
  have no : ∀ p, ¬ p <+: s → stripPrefix p s = none := by
    intro p hp
    cases e : stripPrefix p s with
    | none => rfl
    | some t => exact absurd ⟨t, (stripPrefix_iff.1 e).symm⟩ hp
  have h3 : ¬ b!"Benchmark_" <+: s := fun h => h1 (.trans ⟨b!"_", rfl⟩ h)
  have h4 : ¬ b!"Test_" <+: s := fun h => h2 (.trans ⟨b!"_", rfl⟩ h)
  simp only [cutOnce, no _ h1, no _ h2, no _ h3, no _ h4]

theorem handler_tag {x : Bytes} (hx : HandlerWord x) : testTag (b!"Benchmark" ++ x) = x := by
  have e1 : stripPrefix b!"Benchmark_" (b!"Benchmark" ++ x) = none := by
    cases e : stripPrefix b!"Benchmark_" (b!"Benchmark" ++ x) with
    | none => rfl
    | some t =>
      have := stripPrefix_iff.1 e
      have : x = 0x5F :: t := by
        have h : b!"Benchmark" ++ x = b!"Benchmark" ++ (0x5F :: t) := by rw [this]; rfl
        exact List.append_cancel_left h
      exact absurd this (hx.line t)
  have no : ∀ p, ¬ p <+: x → stripPrefix p x = none := by
    intro p hp
    cases e : stripPrefix p x with
    | none => rfl
    | some t => exact absurd ⟨t, (stripPrefix_iff.1 e).symm⟩ hp
  have h4 : ¬ b!"Test_" <+: x := fun h => hx.test (.trans ⟨b!"_", rfl⟩ h)
  have e2 : cutOnce (b!"Benchmark" ++ x) [b!"Benchmark_", b!"Benchmark", b!"Test_", b!"Test"] = (x, true) := by
    simp only [cutOnce, e1, stripPrefix_append, no _ hx.test, no _ h4]
  unfold testTag
  rw [show (b!"Benchmark" ++ x).length + 1 = (x.length + 8 + 1) + 1 by simp, cutAll, e2]
  dsimp only
  rw [cutAll, cut_none hx.bench hx.test]

theorem filed_handler {E : Env} (hL : LowersLib E.lib) {x : Bytes} (hx : HandlerWord x) {i : Instance} (hf : i.function = b!"Benchmark" ++ x)
    (hT : Tidy i.text) : FiledUnder E i x := by
  have hw : Word (b!"Benchmark" ++ x) := by
    intro a ha
    rcases List.mem_append.1 ha with ha | ha
    · have : ∀ b ∈ b!"Benchmark", isNS b = true := by decide
      exact this a ha
    · exact hx.word a ha
  have hlev : parseLevel E.lib (b!"Benchmark" ++ x) = none := by
    obtain ⟨low, hL⟩ := hL
    cases h : parseLevel E.lib (b!"Benchmark" ++ x) with
    | none => rfl
    | some l =>
      obtain ⟨s, hs, hr⟩ := (Verif.Props.WarnText.C32_parse_any_text hL _ _).1 h
      exfalso
      cases hs <;> (cases hr with | letter h1 h2 => revert h1; decide)
  have hfn : ∀ T, FnName E.lib (b!"Benchmark" ++ x) T := by
    intro T
    refine ⟨hw, by simp, fun a t e => ?_, fun _ => ⟨fun e => ?_, hlev⟩⟩
    · have e : (0x42 : UInt8) :: (b!"enchmark" ++ x) = a :: t := e
      cases e; decide
    · have e : (0x42 : UInt8) :: (b!"enchmark" ++ x) = b!"None" := e
      simp at e
  by_cases ht : i.text = []
  · refine filed (T := []) (hfn _) trim_nil ?_ (handler_tag hx)
    rw [if_pos rfl, shown, if_pos ht, hf]
  · obtain ⟨h0, hT⟩ := hT.resolve_left ht
    refine filed (T := firstLine i.text) (hfn _) hT ?_ (handler_tag hx)
    rw [if_neg h0, shown, if_neg ht, hf]

/-- A name with a text. -/
theorem filed_text {E : Env} (hL : LowersLib E.lib) {i : Instance} {name : Bytes} (hn : name ∈ alone) (hf : i.function = name)
    (hT : Tidy i.text) : FiledUnder E i name := by
  by_cases ht : i.text = []
  · exact filed_alone hL hn ht hf
  · obtain ⟨h0, hT⟩ := hT.resolve_left ht
    refine filed (T := firstLine i.text) ((alone_plain name hn).fn fun e => absurd e h0) hT ?_ (alone_plain name hn).tag
    rw [if_neg h0, shown, if_neg ht, hf]

/-- The instance is filed where it is said to be. -/
def Goes (x n : Bytes) (w : Warning) (fn text : Bytes) : Prop :=
  ∃ tag, Place x n w.name tag ∧ ∀ (E : Env), LowersLib E.lib → ∀ i : Instance, i.function = fn → i.text = text → Tidy text → FiledUnder E i tag

section
variable {L : Lib F} {x n : Bytes} {w : Warning} {fn text : Bytes}

omit [DecidableEq F] in
theorem goes_handler (hx : HandlerWord x) (hf : L.fn = b!"Benchmark" ++ x) (hp : Place x n w.name x) (h : fn = L.fn) : Goes x n w fn text :=
  ⟨x, hp, fun _ hL i h1 h2 h3 => filed_handler hL hx (by rw [h1, h, hf]) (by rw [h2]; exact h3)⟩

omit [DecidableEq F] in
theorem goes_read (hx : HandlerWord x) (hf : L.fn = b!"Benchmark" ++ x) (h : ReadAdds L w fn text) : Goes x n w fn text := by
  obtain ⟨rfl, h⟩ := h
  exact goes_handler hx hf .error h

omit [DecidableEq F] in
theorem goes_find (hx : HandlerWord x) (hf : L.fn = b!"Benchmark" ++ x) {name : Bytes} (hn : PlainName name)
    (hp : ∀ k, k = b!"Mismatch" ∨ k = b!"StringAny" → Place x n k name) (h : FindAdds WordKey L name w fn text) : Goes x n w fn text := by
  rcases h with h | ⟨rfl, h⟩ | ⟨hw, ht, fs, h0, h1, h2⟩
  · exact goes_read hx hf h
  · exact goes_handler hx hf .unused h
  · refine ⟨name, hp _ ?_, fun E _ i e1 e2 _ => filed_fields hn (by rw [e2, ht]) h0 h1 (by rw [e1, h2])⟩
    rcases hw with rfl | rfl
    · exact .inr rfl
    · exact .inl rfl

end

/-- Names of the finders. -/
def finders : List Bytes :=
  [b!"SimpleSource", b!"Attributes", b!"KeyValues", b!"WithAttrsSimple:Basic", b!"WithAttrsSimple:With",
   b!"WithAttrsAttributes:Basic", b!"WithAttrsAttributes:All", b!"WithAttrsAttributes:With",
   b!"WithAttrsKeyValues:Basic", b!"WithAttrsKeyValues:All", b!"WithAttrsKeyValues:With",
   b!"WithGroupAttributes:Basic", b!"WithGroupAttributes:All", b!"WithGroupKeyValues:Basic", b!"WithGroupKeyValues:All"]

set_option maxRecDepth 100000 in
theorem finders_plain : ∀ f ∈ finders, PlainName f := by
  intro f hf
  simp only [finders, List.mem_cons, List.not_mem_nil, or_false] at hf
  rcases hf with rfl | rfl | rfl | rfl | rfl | rfl | rfl | rfl | rfl | rfl | rfl | rfl | rfl | rfl | rfl <;>
    exact ⟨by unfold Word; decide, ⟨_, _, rfl, by decide⟩, by decide +kernel⟩

omit [DecidableEq F] in
theorem basic_keys : KeysOf WordKey (.map (expectedBasic : AMap F)) := by
  simp only [expectedBasic, KeysOf, KeysOfAll, WordKey, Word, and_true]
  decide

omit [DecidableEq F] in
theorem all_keys (N : Nums F) : KeysOf WordKey (.map (allValuesMap N)) := by
  simp only [allValuesMap, expectedGroup, expectedAny, KeysOf, KeysOfAll, WordKey, Word, and_true, true_and]
  decide

omit [DecidableEq F] in
theorem with_keys (N : Nums F) : KeysOf WordKey (.map (withValuesMap N)) := by
  simp only [withValuesMap, expectedGroup, expectedAny, KeysOf, KeysOfAll, WordKey, Word, and_true, true_and]
  decide

omit [DecidableEq F] in
theorem group_keys (N : Nums F) : KeysOf WordKey (.map ([(b!"withGroup", .map (allValuesMap N))] : AMap F)) := by
  have := all_keys N
  simp only [KeysOf, KeysOfAll, WordKey, Word, and_true] at this ⊢
  exact ⟨by decide, this⟩

/-- All that the checks of a benchmark add goes where it is said to. -/
theorem suite_goes {L : Lib F} {x : Bytes} (hx : HandlerWord x) (hf : L.fn = b!"Benchmark" ++ x) {N : Nums F} {now : Nat} {rand : Nat → Fin 5}
    {logData : List (List Slog.Attr)} {bm : Benchmark} (hbm : bm ∈ benchmarks L N now rand logData) {captured : Bytes} {m m' : Manager}
    {e : Option Err} (h : bm.check captured m = some (m', e)) : Grown (Goes x bm.name) m m' := by
  have hr : ∀ {n : Bytes} w f t, ReadAdds L w f t → Goes x n w f t := fun _ _ _ h => goes_read hx hf h
  have fin : ∀ {n : Bytes} (name : Bytes) {e : AMap F}, name ∈ finders → (∀ k, k = b!"Mismatch" ∨ k = b!"StringAny" → Place x n k name) →
      KeysOf WordKey (.map e) → Adds (Goes x n) (finder L name e) := fun name _ h1 h2 h3 =>
    (finder_adds L name h3).mono fun _ _ _ h => goes_find hx hf (finders_plain name h1) h2 h
  have dup : ∀ {n : Bytes} (name : Bytes), Adds (Goes x n) (noDuplicates L name) := fun name => (noDuplicates_adds L name).mono hr
  have part : ∀ (n part : Bytes), (n, part) ∈ parts → ∀ k, k = b!"Mismatch" ∨ k = b!"StringAny" →
      Place x n k (n ++ b!":" ++ part) := fun n p h1 k h3 => .part h1 h3
  simp only [benchmarks, List.mem_cons, List.not_mem_nil, or_false] at hbm
  rcases hbm with rfl | rfl | rfl | rfl | rfl | rfl | rfl | rfl | rfl | rfl | rfl | rfl
  · refine (disabled_adds h).mono ?_
    rintro _ _ _ ⟨rfl, h⟩
    exact goes_handler hx hf (.disabled rfl) h
  · refine (run_adds (matcher_adds L _ _) h).mono ?_
    rintro w f t (h | ⟨rfl, h, h'⟩)
    · exact hr _ _ _ h
    · exact ⟨b!"Simple", .simple rfl, fun E hL i e1 e2 _ => filed_alone hL (by decide) (by rw [e2, h']) (by rw [e1, h])⟩
  · refine run_adds (verify_adds hr ?_) h
    intro c hc
    simp only [List.mem_cons, List.not_mem_nil, or_false] at hc
    rcases hc with rfl | rfl
    · exact fin _ (by decide) (fun k hk => .whole (by dsimp only; decide) hk) basic_keys
    · refine (sourcerer_adds L _).mono ?_
      rintro w f t (h | ⟨hw, h⟩)
      · exact hr _ _ _ h
      · refine ⟨b!"SimpleSource", .source rfl ?_, fun E hL i e1 e2 e3 => filed_text hL (by decide) (by rw [e1, h]) (by rw [e2]; exact e3)⟩
        rcases hw with rfl | rfl
        · exact .inl rfl
        · exact .inr rfl
  · refine run_adds (verify_adds hr ?_) h
    intro c hc
    simp only [List.mem_cons, List.not_mem_nil, or_false] at hc
    rcases hc with rfl | rfl | rfl
    · exact fin _ (by decide) (fun k hk => .whole (by dsimp only; decide) hk) basic_keys
    · exact fin _ (by decide) (fun k hk => .whole (by dsimp only; decide) hk) (all_keys N)
    · exact dup _
  · refine run_adds (verify_adds hr ?_) h
    intro c hc
    simp only [List.mem_cons, List.not_mem_nil, or_false] at hc
    rcases hc with rfl | rfl | rfl
    · exact fin _ (by decide) (fun k hk => .whole (by dsimp only; decide) hk) basic_keys
    · exact fin _ (by decide) (fun k hk => .whole (by dsimp only; decide) hk) (all_keys N)
    · exact dup _
  · refine run_adds (verify_adds hr ?_) h
    intro c hc
    simp only [List.mem_cons, List.not_mem_nil, or_false] at hc
    rcases hc with rfl | rfl | rfl
    · exact fin _ (by decide) (part b!"WithAttrsSimple" b!"Basic" (by decide)) basic_keys
    · exact fin _ (by decide) (part b!"WithAttrsSimple" b!"With" (by decide)) (with_keys N)
    · exact dup _
  · refine run_adds (verify_adds hr ?_) h
    intro c hc
    simp only [List.mem_cons, List.not_mem_nil, or_false] at hc
    rcases hc with rfl | rfl | rfl | rfl
    · exact fin _ (by decide) (part b!"WithAttrsAttributes" b!"Basic" (by decide)) basic_keys
    · exact fin _ (by decide) (part b!"WithAttrsAttributes" b!"All" (by decide)) (all_keys N)
    · exact fin _ (by decide) (part b!"WithAttrsAttributes" b!"With" (by decide)) (with_keys N)
    · exact dup _
  · refine run_adds (verify_adds hr ?_) h
    intro c hc
    simp only [List.mem_cons, List.not_mem_nil, or_false] at hc
    rcases hc with rfl | rfl | rfl | rfl
    · exact fin _ (by decide) (part b!"WithAttrsKeyValues" b!"Basic" (by decide)) basic_keys
    · exact fin _ (by decide) (part b!"WithAttrsKeyValues" b!"All" (by decide)) (all_keys N)
    · exact fin _ (by decide) (part b!"WithAttrsKeyValues" b!"With" (by decide)) (with_keys N)
    · exact dup _
  · refine run_adds (verify_adds hr ?_) h
    intro c hc
    simp only [List.mem_cons, List.not_mem_nil, or_false] at hc
    rcases hc with rfl | rfl | rfl
    · exact fin _ (by decide) (part b!"WithGroupAttributes" b!"Basic" (by decide)) basic_keys
    · exact fin _ (by decide) (part b!"WithGroupAttributes" b!"All" (by decide)) (group_keys N)
    · exact dup _
  · refine run_adds (verify_adds hr ?_) h
    intro c hc
    simp only [List.mem_cons, List.not_mem_nil, or_false] at hc
    rcases hc with rfl | rfl | rfl
    · exact fin _ (by decide) (part b!"WithGroupKeyValues" b!"Basic" (by decide)) basic_keys
    · exact fin _ (by decide) (part b!"WithGroupKeyValues" b!"All" (by decide)) (group_keys N)
    · exact dup _
  · refine (run_adds (bigGroupChecker_adds L _) h).mono ?_
    rintro w f t (h | ⟨rfl, h⟩)
    · exact hr _ _ _ h
    · exact goes_handler hx hf (.large (.inl rfl)) h
  · refine verifyLines_adds hr ?_ h
    intro c hc
    rw [List.mem_singleton.1 hc]
    refine (fields_adds L _ _).mono ?_
    rintro w f t (h | ⟨rfl, h⟩)
    · exact hr _ _ _ h
    · exact goes_handler hx hf (.large (.inr rfl)) h

/-- C86 in part: what the check of a benchmark adds comes after what was there and is filed
as the table says; not always under the benchmark. -/
theorem C86_partial {E : Env} (hL : LowersLib E.lib) {L : Lib F} {x : Bytes} (hx : HandlerWord x) (hf : L.fn = b!"Benchmark" ++ x)
    {N : Nums F} {now : Nat} {rand : Nat → Fin 5} {logData : List (List Slog.Attr)} {bm : Benchmark}
    (hbm : bm ∈ benchmarks L N now rand logData) {captured : Bytes} {m m' : Manager} {e : Option Err}
    (h : bm.check captured m = some (m', e)) (k : Bytes) :
    ∃ new, instancesOf m' k = instancesOf m k ++ new ∧
      ∀ i ∈ new, Tidy i.text → ∃ tag, Place x bm.name k tag ∧ FiledUnder E i tag := by
  obtain ⟨new, e, hn⟩ := (suite_goes hx hf hbm h).instances k
  refine ⟨new, e, fun i hi ht => ?_⟩
  obtain ⟨w, rfl, tag, hp, hg⟩ := hn i hi
  exact ⟨tag, hp, hg E hL i rfl rfl ht⟩

/-- The kinds of warnings that say nothing about the content of the output. -/
def general : List Bytes := [b!"TestError", b!"Unused", b!"NotDisabled"]

/-- C86: for the simple benchmarks, warnings about the content of the output are filed under
the benchmark. -/
theorem C86_own {E : Env} (hL : LowersLib E.lib) {L : Lib F} {x : Bytes} (hx : HandlerWord x) (hf : L.fn = b!"Benchmark" ++ x)
    {N : Nums F} {now : Nat} {rand : Nat → Fin 5} {logData : List (List Slog.Attr)} {bm : Benchmark}
    (hbm : bm ∈ benchmarks L N now rand logData) (hs : bm.name ∈ [b!"Simple", b!"SimpleSource", b!"Attributes", b!"KeyValues"])
    {captured : Bytes} {m m' : Manager} {e : Option Err} (h : bm.check captured m = some (m', e)) {k : Bytes} (hk : k ∉ general) :
    ∀ i ∈ (instancesOf m' k).drop (instancesOf m k).length, Tidy i.text → FiledUnder E i bm.name := by
  obtain ⟨new, e, hn⟩ := C86_partial hL hx hf hbm h k
  intro i hi ht
  rw [e, List.drop_left] at hi
  obtain ⟨tag, hp, hg⟩ := hn i hi ht
  generalize bm.name = n at hs hp ⊢
  cases hp with
  | error => exact absurd (by decide) hk
  | unused => exact absurd (by decide) hk
  | disabled h => exact absurd (by decide) hk
  | large h => rcases h with rfl | rfl <;> exact absurd hs (by decide)
  | simple => exact hg
  | whole => exact hg
  | source => exact hg
  | part h =>
    have : ∀ p ∈ parts, p.1 ∉ [b!"Simple", b!"SimpleSource", b!"Attributes", b!"KeyValues"] := by decide
    exact absurd hs (this _ h)

/-! ### Cases -/

/-- The library of the benchmark function of flash. -/
def flashLib : Lib Bytes := { Verif.Bench.Sample.lib with fn := b!"BenchmarkMadkinsFlash" }

theorem flash_word : HandlerWord b!"MadkinsFlash" :=
  ⟨by unfold Word; decide, by decide, by decide, by intro t e; injection e with e; exact absurd e (by decide)⟩

/-- The data of the benchmarks do not matter here. -/
def suite : List Benchmark := benchmarks flashLib Verif.Props.BenchFlash.sampleNums 11 (fun i => Fin.ofNat 5 i) []

/-- What the check of the i-th benchmark adds. -/
def adds (i : Nat) (captured k : Bytes) : Option (List (Bytes × Bytes)) :=
  suite[i]?.bind fun b => (b.check captured {}).map fun r => (instancesOf r.1 k).map fun i => (i.function, i.text)

example : adds 0 b!"{}" b!"NotDisabled" = some [(b!"BenchmarkMadkinsFlash", b!"Disabled")] := by decide +kernel
example : adds 1 b!"{\"level\":\"INFO\"}\n" b!"Mismatch" = some [(b!"Simple", [])] := by decide +kernel
example : adds 2 b!"{\"level\":\"INFO\",\"msg\":\"This is a message\",\"source\":{\"file\":\"x.go\"}}\n" b!"SourceKey" =
    some [(b!"SimpleSource", b!"missing fields: function,line")] := by decide +kernel

/-- C86 is false as stated: a handler that writes although it is disabled is warned about
under its own name, which is not one of a benchmark. -/
theorem C86_fails : ¬ C86_statement Bytes := by
  intro h
  have hm : ∀ bm ∈ suite.head?, ∃ m' e, bm.check b!"{}" {} = some (m', e) ∧ bm.name = b!"Disabled" ∧
      (instancesOf m' b!"NotDisabled").map (fun i => (i.function, i.text)) = [(b!"BenchmarkMadkinsFlash", b!"Disabled")] := by
    intro bm hb
    cases hb
    exact ⟨_, _, rfl, rfl, by decide +kernel⟩
  obtain ⟨bm, hb⟩ : ∃ bm, suite.head? = some bm := ⟨_, rfl⟩
  obtain ⟨m', e, hc, hn, hi⟩ := hm bm (by rw [hb]; rfl)
  obtain ⟨i, hi1, hi2⟩ : ∃ i, i ∈ instancesOf m' b!"NotDisabled" ∧ (i.function, i.text) = (b!"BenchmarkMadkinsFlash", b!"Disabled") := by
    have := List.mem_map.1 (hi ▸ List.mem_singleton.2 rfl : (b!"BenchmarkMadkinsFlash", b!"Disabled") ∈
      (instancesOf m' b!"NotDisabled").map (fun i => (i.function, i.text)))
    obtain ⟨i, h1, h2⟩ := this
    exact ⟨i, h1, h2⟩
  have hf : i.function = b!"BenchmarkMadkinsFlash" := congrArg Prod.fst hi2
  have ht : i.text = b!"Disabled" := congrArg Prod.snd hi2
  have tidy : Tidy i.text := .inr (by
    rw [ht]
    exact ⟨by decide, trim_word (by unfold Word; decide)⟩)
  have hL : LowersLib Verif.Props.Setup.someEnv.lib := ⟨_, Letters.some_lowers⟩
  have := h Verif.Props.Setup.someEnv hL flashLib b!"MadkinsFlash" flash_word rfl
    _ _ _ _ bm (List.mem_of_mem_head? (by rw [show benchmarks flashLib Verif.Props.BenchFlash.sampleNums 11 (fun i => Fin.ofNat 5 i) [] = suite from rfl, hb]; rfl)) b!"{}" {} m' e hc b!"NotDisabled" i hi1 tidy
  have other := filed_handler hL flash_word (i := i) hf tidy
  obtain ⟨s1, e1, t1, _⟩ := this [] (.inl (by simp)) [] { handler := b!"x" } (by decide)
  obtain ⟨s2, e2, t2, _⟩ := other [] (.inl (by simp)) [] { handler := b!"x" } (by decide)
  rw [e1] at e2
  cases e2
  rw [t1, hn] at t2
  exact absurd t2 (by decide)

end Verif.Props.BenchFiled
