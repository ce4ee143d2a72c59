import Verif.Count.Runs
import Verif.Spec.JsonSound
import Mathlib.Data.List.Dedup

/-
Properties C34, C35, C36: the field counter.
-/

set_option linter.unusedSimpArgs false

namespace Verif.Props.FieldCount
open Go Json Verif.Count

/-! ### Specification -/

/-- How often a key spelled `k` occurs among the members of an object. -/
def times (k : Bytes) (ms : List (Bytes × Cst)) : Nat := (ms.map Prod.fst).count k

/-- What a map from keys to counts says if `k` was seen `n` times. -/
def entry (n : Nat) : Option Nat := if n = 0 then none else some n

mutual
/-- No member spelled `fields` inside the value is an object. -/
def Plain : Cst → Prop
  | .obj ms => PlainMembers ms
  | .arr es => PlainElems es
  | _ => True
def PlainElems : List Cst → Prop
  | [] => True
  | v :: vs => Plain v ∧ PlainElems vs
def PlainMembers : List (Bytes × Cst) → Prop
  | [] => True
  | (k, v) :: ms => (k = b!"fields" → ∀ ms', v ≠ .obj ms') ∧ Plain v ∧ PlainMembers ms
end

mutual
/-- How often `k` is a key of an object that is itself the value of a member spelled
`fields`, anywhere inside the value. -/
def deepVal (k : Bytes) : Cst → Nat
  | .obj ms => deepMembers k ms
  | .arr es => deepElems k es
  | _ => 0
def deepElems (k : Bytes) : List Cst → Nat
  | [] => 0
  | v :: vs => deepVal k v + deepElems k vs
def deepMembers (k : Bytes) : List (Bytes × Cst) → Nat
  | [] => 0
  | (f, v) :: ms => (if f = b!"fields" then ownKeys k v else 0) + deepVal k v + deepMembers k ms
/-- How often `k` is a key of the value itself. -/
def ownKeys (k : Bytes) : Cst → Nat
  | .obj ms => (ms.map Prod.fst).count k
  | _ => 0
end

/-! ### The counts after a list of actions -/

theorem run_cons (m : Map Bytes Nat) (a : Act) (as : List Act) : run m (a :: as) = run (Act.apply m a) as := rfl

/-- How often a key is counted. -/
def ones (k : Bytes) (as : List Act) : Nat := as.countP fun a => match a with | .one x => decide (x = k) | .forget => false

theorem ones_append (k : Bytes) (as bs : List Act) : ones k (as ++ bs) = ones k as + ones k bs := by
  simp [ones, List.countP_append]

theorem get_run (k : Bytes) : ∀ (as : List Act) (m : Map Bytes Nat) (n : Nat), m.get k = entry n →
    (k = b!"fields" → ∀ a ∈ as, a ≠ .forget) → (run m as).get k = entry (n + ones k as)
  | [], m, n, h, _ => by simpa [run, ones] using h
  | .one x :: as, m, n, h, hf => by
    rw [run_cons]
    by_cases hx : x = k
    · subst hx
      rw [get_run x as _ (n + 1) ?_ (fun e a ha => hf e a (List.mem_cons_of_mem _ ha))]
      · simp [ones, List.countP_cons]; congr 1; omega
      · simp only [Act.apply, Map.get_set, if_pos, h, entry]
        by_cases hn : n = 0 <;> simp [hn]
    · rw [get_run k as _ n ?_ (fun e a ha => hf e a (List.mem_cons_of_mem _ ha))]
      · simp [ones, List.countP_cons, hx]
      · simp only [Act.apply, Map.get_set, if_neg (Ne.symm hx), h]
  | .forget :: as, m, n, h, hf => by
    rw [run_cons]
    by_cases hk : k = b!"fields"
    · exact absurd rfl (hf hk .forget (by simp))
    · rw [get_run k as _ n ?_ (fun e => absurd e hk)]
      · simp [ones, List.countP_cons]
      · simp only [Act.apply, Map.get_del, if_neg hk, h]

theorem nodup_run : ∀ (as : List Act) (m : Map Bytes Nat), m.keys.Nodup → (run m as).keys.Nodup
  | [], _, h => h
  | .one _ :: as, _, h => nodup_run as _ (Map.nodup_set h _ _)
  | .forget :: as, _, h => nodup_run as _ (Map.nodup_del h _)

/-! ### The actions of a text -/

mutual
theorem ones_val (k : Bytes) : ∀ v : Cst, ones k (valActs v) = deepVal k v
  | .obj ms => by rw [valActs, deepVal]; simpa using ones_obj k false ms
  | .arr es => by rw [valActs, deepVal]; exact ones_elems k es
  | .null => rfl
  | .tru => rfl
  | .fls => rfl
  | .num _ => rfl
  | .str _ => rfl
theorem ones_elems (k : Bytes) : ∀ es : List Cst, ones k (elemActs es) = deepElems k es
  | [] => rfl
  | v :: vs => by rw [elemActs, deepElems, ones_append, ones_val k v, ones_elems k vs]
theorem ones_obj (k : Bytes) (n : Bool) : ∀ ms : List (Bytes × Cst),
    ones k (objActs n ms) = (if n then (ms.map Prod.fst).count k else 0) + deepMembers k ms
  | [] => by cases n <;> rfl
  | (f, v) :: ms => by
    rw [objActs, deepMembers, ones_append, ones_append, ones_obj k n ms, ones_member k f v]
    cases n
    · simp [ones]
    · simp [ones, List.count_cons]
      by_cases h : f = k <;> simp [h] <;> omega
theorem ones_member (k f : Bytes) : ∀ v : Cst,
    ones k (memberActs f v) = (if f = b!"fields" then ownKeys k v else 0) + deepVal k v
  | .obj ms => by
    rw [memberActs, deepVal, ownKeys]
    by_cases h : f = b!"fields"
    · rw [if_pos h, if_pos h]
      have := ones_obj k true ms
      simp only [ones, List.countP_cons] at *
      simpa using this
    · rw [if_neg h, if_neg h]
      simpa using ones_obj k false ms
  | .arr es => by simp [memberActs, deepVal, ownKeys, ones_elems k es]
  | .null => by simp [memberActs, deepVal, ownKeys, ones]
  | .tru => by simp [memberActs, deepVal, ownKeys, ones]
  | .fls => by simp [memberActs, deepVal, ownKeys, ones]
  | .num _ => by simp [memberActs, deepVal, ownKeys, ones]
  | .str _ => by simp [memberActs, deepVal, ownKeys, ones]
end

/-- The members of an object, their keys counted or not. -/
def keyActs (n : Bool) (ms : List (Bytes × Cst)) : List Act := if n then ms.map fun e => .one e.1 else []

mutual
theorem plain_val : ∀ v : Cst, Plain v → valActs v = []
  | .obj ms, h => by rw [valActs]; exact plain_obj false ms h
  | .arr es, h => by rw [valActs]; exact plain_elems es h
  | .null, _ => rfl
  | .tru, _ => rfl
  | .fls, _ => rfl
  | .num _, _ => rfl
  | .str _, _ => rfl
theorem plain_elems : ∀ es : List Cst, PlainElems es → elemActs es = []
  | [], _ => rfl
  | v :: vs, h => by rw [elemActs, plain_val v h.1, plain_elems vs h.2]; rfl
theorem plain_obj (n : Bool) : ∀ ms : List (Bytes × Cst), PlainMembers ms → objActs n ms = keyActs n ms
  | [], _ => by cases n <;> rfl
  | (f, v) :: ms, h => by
    rw [objActs, plain_obj n ms h.2.2, plain_member f v h.1 h.2.1]
    cases n <;> simp [keyActs]
theorem plain_member (f : Bytes) : ∀ v : Cst, (f = b!"fields" → ∀ ms', v ≠ .obj ms') → Plain v → memberActs f v = []
  | .obj ms, h, hv => by
    rw [memberActs, if_neg (fun e => h e ms rfl)]
    exact plain_obj false ms hv
  | .arr es, _, hv => by rw [memberActs]; exact plain_elems es hv
  | .null, _, _ => rfl
  | .tru, _, _ => rfl
  | .fls, _, _ => rfl
  | .num _, _, _ => rfl
  | .str _, _, _ => rfl
end

/-! ### C34 -/

/-- What C34 says of a counter after parsing an object with these members. -/
structure Reports (c : Ctr) (key : Bytes → Bytes) (ms : List (Bytes × Cst)) : Prop where
  counts : ∀ k, c.counts.get k = entry ((ms.map fun e => key e.1).count k)
  duplicates : ∀ k n, (k, n) ∈ c.duplicates ↔ n = (ms.map fun e => key e.1).count k ∧ 1 < n
  fields : ∀ (S : Sorter) (pick : List Bytes → List Bytes), (∀ l, (pick l).Perm l) →
    (c.fields S pick).Pairwise (fun a b => less a b = true) ∧ ∀ k, k ∈ c.fields S pick ↔ k ∈ ms.map fun e => key e.1
  number : c.numFields = (ms.map fun e => key e.1).dedup.length

/-- The text of a key: what its spelling decodes to. -/
def keyText (k : Bytes) : Bytes := (decodeBody k).getD []

/-- C34 as written: keys are compared as the texts they stand for. -/
def C34_statement : Prop := ∀ (U : Uni), Latin U → ∀ (src : Bytes) (ms : List (Bytes × Cst)),
  Json.parse src = some (.obj ms) → ∃ c, Count.parse U src = some (c, .ok) ∧ Reports c keyText ms

theorem Reports.of_get {c : Ctr} {key : Bytes → Bytes} {ms : List (Bytes × Cst)} (hn : c.counts.keys.Nodup)
    (h : ∀ k, c.counts.get k = entry ((ms.map fun e => key e.1).count k)) : Reports c key ms := by
  have hmem : ∀ k, k ∈ c.counts.keys ↔ k ∈ ms.map fun e => key e.1 := by
    intro k
    rw [Map.mem_keys, h, entry, ← List.count_pos_iff]
    by_cases e : (ms.map fun e => key e.1).count k = 0
    · simp [e]
    · rw [if_neg e]; simp only [Option.isSome_some, true_iff]; omega
  refine ⟨h, fun k n => ?_, fun S pick hp => ?_, ?_⟩
  · unfold Ctr.duplicates
    rw [List.mem_filter]
    constructor
    · rintro ⟨hm, hgt⟩
      have := Map.get_of_mem hn hm
      rw [h, entry] at this
      split at this
      · cases this
      · exact ⟨(Option.some.inj this).symm, by simpa using hgt⟩
    · rintro ⟨rfl, hgt⟩
      refine ⟨Map.mem_of_get ?_, by simpa using hgt⟩
      rw [h, entry, if_neg (by omega)]
  · have hperm : (c.fields S pick).Perm c.counts.keys := (S.perm _ _).trans (hp _)
    refine ⟨?_, fun k => by rw [hperm.mem_iff, hmem]⟩
    have h1 := S.sorted less (pick c.counts.keys) less_weak
    have h2 : (c.fields S pick).Nodup := hperm.nodup_iff.2 hn
    refine (h1.and h2).imp ?_
    intro a b hab
    rcases less_total a b with h | h | h
    · exact h
    · exact absurd h hab.2
    · rw [hab.1] at h; cases h
  · have e : c.numFields = c.counts.keys.length := by simp [Ctr.numFields, Map.keys]
    rw [e]
    refine List.Perm.length_eq ((List.perm_ext_iff_of_nodup hn (List.nodup_dedup _)).2 fun k => ?_)
    rw [hmem, List.mem_dedup]

theorem object_text {src : Bytes} {ms : List (Bytes × Cst)} (h : Json.parse src = some (.obj ms)) :
    ∃ w b r, Ws w ∧ Val b (.obj ms) ∧ src = w ++ (b ++ r) := by
  obtain ⟨w1, b, w2, h1, _, rfl, hv⟩ := val_of_parse h
  exact ⟨w1, b, w2, h1, hv, by simp⟩

/-- C34, for every JSON object: parsing succeeds, and for every key except `fields` the
count is the number of its occurrences in the object itself plus those in objects that
are the value of a member `fields` at any depth. -/
theorem C34_counts_of_every_object {U : Uni} (hU : Latin U) {src : Bytes} {ms : List (Bytes × Cst)}
    (h : Json.parse src = some (.obj ms)) :
    ∃ c, Count.parse U src = some (c, .ok) ∧
      ∀ k, k ≠ b!"fields" → c.counts.get k = entry (times k ms + deepMembers k ms) := by
  obtain ⟨w, b, r, hw, hv, rfl⟩ := object_text h
  obtain ⟨c, hc, _, hcnt⟩ := parse_object hU hw hv r
  refine ⟨c, hc, fun k hk => ?_⟩
  rw [hcnt, get_run k _ [] 0 (by simp [Map.get_nil, entry]) (fun e => absurd e hk), ones_obj]
  simp [times]

/-- C34: if no member spelled `fields` is an object, then the spelled keys are reported
exactly: counts, duplicates, number of different keys, and the sorted list. -/
theorem C34_reports_partial {U : Uni} (hU : Latin U) {src : Bytes} {ms : List (Bytes × Cst)}
    (h : Json.parse src = some (.obj ms)) (hp : PlainMembers ms) :
    ∃ c, Count.parse U src = some (c, .ok) ∧ Reports c id ms := by
  obtain ⟨w, b, r, hw, hv, rfl⟩ := object_text h
  obtain ⟨c, hc, _, hcnt⟩ := parse_object hU hw hv r
  refine ⟨c, hc, Reports.of_get ?_ fun k => ?_⟩
  · rw [hcnt]; exact nodup_run _ _ (by simp [Map.keys])
  · have hf : ∀ a ∈ objActs true ms, a ≠ .forget := by
      rw [plain_obj true ms hp]
      intro a ha
      simp only [keyActs, if_true, List.mem_map] at ha
      obtain ⟨_, _, rfl⟩ := ha
      simp
    have ho : ones k (objActs true ms) = (ms.map Prod.fst).count k := by
      rw [plain_obj true ms hp]
      clear hf hp hcnt hv h hc
      induction ms with
      | nil => rfl
      | cons e ms ih =>
        simp only [keyActs, if_true, List.map_cons, ones, List.countP_cons, List.count_cons] at ih ⊢
        rw [ih]
        by_cases hx : e.1 = k <;> simp [hx]
    rw [hcnt, get_run k _ [] 0 (by simp [Map.get_nil, entry]) (fun _ => hf), ho]
    simp

/-- A key without escapes. -/
def Unescaped (k : Bytes) : Prop := ∀ b ∈ k, b ≠ 0x5C

theorem body_unescaped {k s : Bytes} (h : Body k s) (hu : Unescaped k) : s = k := by
  induction h with
  | nil => rfl
  | chr hc _ _ ih => rw [ih fun b hb => hu b (List.mem_append_right _ hb)]
  | esc _ _ _ => exact absurd rfl (hu 0x5C (by simp))
  | uni _ _ _ => exact absurd rfl (hu 0x5C (by simp))

theorem keyText_unescaped {k : Bytes} (hk : BodyOk k) (hu : Unescaped k) : keyText k = k := by
  obtain ⟨s, hs⟩ := hk.body
  rw [keyText, decodeBody_of_body hs]
  exact body_unescaped hs hu

theorem members_keys {b : Bytes} {ms : List (Bytes × Cst)} (h : Members b ms) : ∀ e ∈ ms, BodyOk e.1 := by
  match h with
  | .one _ hk _ _ _ _ => intro e he; rw [List.mem_singleton] at he; subst he; exact hk
  | .cons _ hk _ _ _ _ hm =>
    intro e he
    rcases List.mem_cons.1 he with rfl | he
    · exact hk
    · exact members_keys hm e he

theorem object_keys {b : Bytes} {ms : List (Bytes × Cst)} (h : Val b (.obj ms)) : ∀ e ∈ ms, BodyOk e.1 := by
  cases h with
  | obj0 _ => intro e he; cases he
  | obj hm => exact members_keys hm

/-- C34: what is missing from the full claim are objects named `fields` and keys written
with escapes: without them the claim holds as written. -/
theorem C34_reports_texts_partial {U : Uni} (hU : Latin U) {src : Bytes} {ms : List (Bytes × Cst)}
    (h : Json.parse src = some (.obj ms)) (hp : PlainMembers ms) (hu : ∀ e ∈ ms, Unescaped e.1) :
    ∃ c, Count.parse U src = some (c, .ok) ∧ Reports c keyText ms := by
  obtain ⟨c, hc, hr⟩ := C34_reports_partial hU h hp
  refine ⟨c, hc, ?_⟩
  obtain ⟨w, b, r, _, hv, _⟩ := object_text h
  have e : (ms.map fun e => keyText e.1) = ms.map fun e => id e.1 :=
    List.map_congr_left fun e he => keyText_unescaped (object_keys hv e he) (hu e he)
  exact ⟨by rw [e]; exact hr.counts, by rw [e]; exact hr.duplicates, by rw [e]; exact hr.fields, by rw [e]; exact hr.number⟩

/-- Package unicode on ASCII, for the examples. -/
def latin1 : Uni := ⟨fun n => decide (0x30 ≤ n ∧ n ≤ 0x39),
  fun n => decide ((0x41 ≤ n ∧ n ≤ 0x5A) ∨ (0x61 ≤ n ∧ n ≤ 0x7A)), id⟩

theorem latin1_ok : Latin latin1 :=
  ⟨fun a _ => by simp [latin1, UInt8.le_iff_toNat_le], fun a _ => by simp [latin1, UInt8.le_iff_toNat_le], fun s _ => rfl⟩

/-- A case: nested objects, duplicates, numbers and escapes in values. -/
example : ∃ ms, Json.parse b!" {\"a\":[1,{\"a\":-2.5e3}],\"b\":{\"c\":\"\\n\"},\"a\":null} " = some (.obj ms) ∧
    PlainMembers ms ∧ (∀ e ∈ ms, Unescaped e.1) ∧ times b!"a" ms = 2 := by
  refine ⟨_, rfl, ?_, ?_, ?_⟩
  · simp [PlainMembers, Plain, PlainElems]
  · simp [Unescaped]
  · decide

/-- A case of the general theorem: an object `fields` inside another object counts. -/
example : ∃ ms, Json.parse b!"{\"a\":{\"fields\":{\"a\":1,\"b\":2}}}" = some (.obj ms) ∧
    times b!"a" ms + deepMembers b!"a" ms = 2 := ⟨_, rfl, by decide⟩

/-- C34 as written is false: of `{"fields":{"a":1}}` the key `a` is reported, which is
no key of the object. -/
theorem C34_statement_fails : ¬ C34_statement := by
  intro h
  obtain ⟨c, hc, hr⟩ := h latin1 latin1_ok b!"{\"fields\":{\"a\":1}}" _ rfl
  obtain ⟨c', hc', hk⟩ := C34_counts_of_every_object latin1_ok (src := b!"{\"fields\":{\"a\":1}}") rfl
  rw [hc] at hc'
  cases hc'
  have h1 := hk b!"a" (by decide)
  have h2 := hr.counts b!"a"
  rw [h1] at h2
  exact absurd h2 (by decide)

/-- C34 as written is also false without such objects: the two keys of
`{"a":1,"\u0061":2}` are the same text but not reported as a duplicate. -/
theorem C34_escaped_duplicate_missed : ∃ (src : Bytes) (ms : List (Bytes × Cst)), Json.parse src = some (.obj ms) ∧
    PlainMembers ms ∧ (ms.map fun e => keyText e.1).count b!"a" = 2 ∧
    ∀ U, Latin U → ∀ c s, Count.parse U src = some (c, s) → c.duplicates = [] := by
  refine ⟨b!"{\"a\":1,\"\\u0061\":2}", _, rfl, ?_, by decide, fun U hU c s hc => ?_⟩
  · simp [PlainMembers, Plain]
  · obtain ⟨c', hc', hr⟩ := C34_reports_partial hU (src := b!"{\"a\":1,\"\\u0061\":2}") rfl (by simp [PlainMembers, Plain])
    rw [hc] at hc'
    cases hc'
    refine List.eq_nil_iff_forall_not_mem.2 fun e he => ?_
    obtain ⟨h1, h2⟩ := (hr.duplicates e.1 e.2).1 he
    rw [h1] at h2
    simp only [List.map_cons, List.map_nil, id, List.count_cons, List.count_nil] at h2
    by_cases h3 : b!"a" = e.1
    · rw [← h3] at h2; revert h2; decide
    · have h4 : (b!"a" == e.1) = false := by simpa using h3
      rw [h4] at h2
      split at h2 <;> simp at h2

/-! ### C35 -/

/-- C35 as written. -/
def C35_statement : Prop := ∀ (U : Uni), Latin U → ∀ src : Bytes, (∀ ms, Json.parse src ≠ some (.obj ms)) →
  ∃ c e, Count.parse U src = some (c, .failed e)

/-- C35 is false: the empty input is accepted. -/
theorem C35_statement_fails : ¬ C35_statement := by
  intro h
  obtain ⟨c, e, hc⟩ := h latin1 latin1_ok [] (fun ms => by
    have : Json.parse [] = none := by decide
    rw [this]; exact nofun)
  revert hc
  have : Count.parse latin1 [] = some (new [], .ok) := rfl
  rw [this]
  exact nofun

/-- C35 is also false for texts that go on after an object: whatever follows is ignored. -/
theorem C35_trailing_text_accepted {U : Uni} (hU : Latin U) {src : Bytes} {ms : List (Bytes × Cst)}
    (h : Json.parse src = some (.obj ms)) (junk : Bytes) : ∃ c, Count.parse U (src ++ junk) = some (c, .ok) := by
  obtain ⟨w, b, r, hw, hv, rfl⟩ := object_text h
  obtain ⟨c, hc, _, _⟩ := parse_object hU hw hv (r ++ junk)
  exact ⟨c, by simpa using hc⟩

/-- A case. -/
example {U : Uni} (hU : Latin U) : ∃ c, Count.parse U b!"{\"a\":1}}]" = some (c, .ok) :=
  C35_trailing_text_accepted hU (src := b!"{\"a\":1}") (ms := [(b!"a", .num b!"1")]) rfl b!"}]"

/-- White space as package unicode sees it, in UTF-8. -/
inductive Blank : Bytes → Prop
  | nil : Blank []
  | cons {s : Bytes} {r w : Nat} : decodeRune s = some (r, w) → isSpace r = true → Blank (s.drop w) → Blank s

/-- The first rune that is no white space. -/
inductive First : Bytes → Nat → Prop
  | here {s : Bytes} {r w : Nat} : decodeRune s = some (r, w) → isSpace r = false → First s r
  | skip {s : Bytes} {r w x : Nat} : decodeRune s = some (r, w) → isSpace r = true → First (s.drop w) x → First s x

theorem loop_first {U : Uni} {s : Bytes} {x : Nat} (h : First s x) (hx : x ≠ 0x7B) : ∀ (f n : Nat) (c : Ctr), c.rest = s →
    ∀ r, drop1 (readLoop n (parseBody (parseObject U f)) () c) = some r → r.2 = .failed false := by
  induction h with
  | @here s r w hd hs =>
    intro f n c hc
    cases n with
    | zero => intro r h; cases h
    | succ n =>
      intro r' h
      have hn : r ≠ 0x0A := by rintro rfl; revert hs; decide
      rw [readLoop, readRune, hc, hd] at h
      simp only [if_neg hn] at h
      rw [parseBody, if_neg (by rw [hs]; decide), if_neg hx] at h
      cases h
      rfl
  | @skip s r w x hd hs _ ih =>
    intro f n c hc
    cases n with
    | zero => intro r h; cases h
    | succ n =>
      intro r' h
      rw [readLoop, readRune, hc, hd] at h
      have hs' : isSpace (if r = 0x0A then 0x20 else r) = true := by
        split
        · decide
        · exact hs
      simp only [parseBody, hs', if_true] at h
      exact ih hx f n _ rfl r' h

/-- C35, what holds: the input is rejected if its first rune that is no white space is
not an opening brace. What is missing: inputs that end early, continue after the object,
or deviate inside the object in ways the counter does not look at. -/
theorem C35_other_start_rejected_partial (U : Uni) {src : Bytes} {x : Nat} (h : First src x) (hx : x ≠ 0x7B) :
    ∃ c, Count.parse U src = some (c, .failed false) := by
  obtain ⟨c, s, n, he, _⟩ := parseWith_ends U (2 * src.length + 4) (new src) (by show 2 * src.length + 2 ≤ _; omega)
  have := loop_first h hx _ _ _ rfl (c, s) he
  simp only at this
  subst this
  exact ⟨c, he⟩

/-- A case: a JSON array after a no-break space. -/
example : First ([0xC2, 0xA0] ++ b!"[1]") 0x5B := .skip (r := 0xA0) (w := 2) (by decide) (by decide) (.here (w := 1) (by decide) (by decide))

/-! ### C36 -/

/-- C36: for every input, `Parse` ends, the result does not depend on how many rounds are
allowed beyond the bound, and the unread input is what remains after reading some number
of runes off the input, which is the character location reported. -/
theorem C36_parse_ends (U : Uni) (src : Bytes) : ∃ c s n, s ≠ .finished ∧
    (∀ rounds, 2 * src.length + 4 ≤ rounds → parseWith U rounds (new src) = some (c, s)) ∧
    Ate src n c.rest ∧ c.loc = n := by
  obtain ⟨c, s, n, he, hs, hm, _⟩ := parseWith_ends U (2 * src.length + 4) (new src) (by show 2 * src.length + 2 ≤ _; omega)
  refine ⟨c, s, n, hs, fun rounds hr => parseWith_mono U hr _ _ he, hm.ate, ?_⟩
  have := hm.loc
  simpa [new] using this

/-- C36: no rune is consumed twice: the runes read fit into the input. -/
theorem C36_consumed_fits {s t : Bytes} {n : Nat} (h : Ate s n t) : t.length + n ≤ s.length := h.length

/-- C36: the text read is a prefix of the input. -/
theorem C36_consumed_prefix {s t : Bytes} {n : Nat} (h : Ate s n t) : ∃ p, s = p ++ t := by
  induction h with
  | refl s => exact ⟨[], rfl⟩
  | @step s t r w n hd _ ih =>
    obtain ⟨p, hp⟩ := ih
    exact ⟨s.take w ++ p, by rw [List.append_assoc, ← hp, List.take_append_drop]⟩

/-- A case: an input that is no JSON at all. -/
example : ∃ c, Count.parse latin1 [0x20, 0xFF, 0x7B] = some (c, .failed false) :=
  C35_other_start_rejected_partial latin1 (x := 0xFFFD) (.skip (r := 0x20) (w := 1) (by decide) (by decide)
    (.here (w := 1) (by decide) (by decide))) (by decide)

end Verif.Props.FieldCount
