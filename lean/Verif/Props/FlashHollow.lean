import Verif.Flash.Hollow
import Verif.Props.FlashReplace

/-
Property C17, exactly: for which replacement functions and records the line of flash is JSON.
-/

set_option linter.unusedSimpArgs false

namespace Verif.Props.FlashHollow
open Slog Json LogTree Flash

theorem basics_fit {env : Env} (he : EnvClean env) {x : Extras} {r : Record}
    (hr : RecordClean env x { r with attrs := [] }) (src : Bool) :
    ListFit env x.timeFormat (basicAttrs env x src r) := by
  have src' : AnyClean (.obj (sourceObj env r.pc)) := by
    obtain ⟨b, h1, h2⟩ := sourceText he hr.function hr.file
    simp only [sourceObj, anyText, Option.some.injEq] at h1
    simp only [AnyClean, sourceObj]
    exact ⟨_, by rw [h1]; exact h2⟩
  have t := hr.time
  obtain ⟨time, level, message, pc, attrs⟩ := r
  simp only at t src' ⊢
  have lv := hr.level
  have ms := hr.message
  simp only at lv ms
  cases time with
  | none =>
    cases hs : src && pc != 0 <;>
      simp [basicAttrs, hs, ListFit, AttrFit, ValFit, LeafClean, hr.levelKey, hr.messageKey,
        hr.sourceKey, lv, ms, src']
  | some tm =>
    have := t tm rfl
    cases hs : src && pc != 0 <;>
      simp [basicAttrs, hs, ListFit, AttrFit, ValFit, LeafClean, hr.levelKey, hr.messageKey,
        hr.sourceKey, hr.timeKey, lv, ms, src', this]

/-- When the line is JSON, for the members `bm` left of the built-in fields, the members `pl` that
follow, and `ok`: the lists `pl` was made from are sound, each for itself. -/
def Whole (bm : List (Bytes × Shape)) (pl : List (Bytes × Tree)) (ok : Bool) : Prop :=
  soundList bm = true ∧ ok = true ∧ (endsHollow false bm = true → pl = [])

/-- C17, exactly. A replacement function may rename, remove, make groups of values and values of
groups, as long as what it returns can be printed and it comes to an end (`Fitting`). What is left
of the attributes is a list of shapes under the specification `LList`, `LPlace`. The line is JSON if
and only if no member follows a group that was emptied, or that ends with such a group, within the
built-in fields and within each list given to WithAttrs or logged, and nothing follows built-in
fields that end with one. If it is JSON, it has exactly the members left, in that order. This is
partial because C17 asks for JSON in every case, see `C17_flash_lost_comma`. -/
theorem C17_flash_exact_partial (env : Env) (x : Extras) (o : Options) (f : AttrFn) (rank : Attr → Nat)
    (ops : List Op) (r : Record) (n : Nat) (ho : o.replace = some f) (he : EnvClean env)
    (hf : Fitting env x.timeFormat f rank) (hops : OpsFit env x.timeFormat ops)
    (hr : RecordClean env x { r with attrs := [] }) (has : ListFit env x.timeFormat r.attrs)
    (hw : Ranked rank n ops (basicAttrs env x o.addSource r ++ r.attrs)) (hn : n < env.stack) :
    ∃ bm pl ok, LList (replOf env x f) (opened (r.attrs.all Attr.isEmpty) [] ops) n
        (basicAttrs env x o.addSource r) bm ∧
      LPlace (replOf env x f) n [] ops r.attrs pl ok ∧
      ∃ h b, (H.plain (newHandler env o x)).derive ops = some h ∧
        h.handle none r = .line (b ++ [0x0A]) ∧
        ((∃ t, Denotes b t) ↔ Whole bm pl ok) ∧
        (Whole bm pl ok → LineText b (.obj (shapeTrees bm ++ pl))) := by
  obtain ⟨bm, hb⟩ := fit_list (R := replOf env x f) rfl hf (opened (r.attrs.all Attr.isEmpty) [] ops) n
    (basicAttrs env x o.addSource r) (basics_fit he hr _) fun a ha => hw.2 a (by simp [ha])
  obtain ⟨pl, ok, hp⟩ := fit_place (R := replOf env x f) rfl hf n has ops [] hops
    ⟨hw.1, fun a ha => hw.2 a (by simp [ha])⟩
  obtain ⟨h, b, h1, h2, h3, h4⟩ := handle_hollow ho hn hb hp
  exact ⟨bm, pl, ok, hb, hp, h, b, h1, h2, ⟨h4, fun hw => ⟨_, (h3 hw).1⟩⟩, h3⟩

/-- C17, the same for given members: whatever is left according to the specification decides. -/
theorem C17_flash_given_partial (env : Env) (x : Extras) (o : Options) (f : AttrFn) (ops : List Op)
    (r : Record) (n : Nat) (bm : List (Bytes × Shape)) (pl : List (Bytes × Tree)) (ok : Bool)
    (ho : o.replace = some f) (hn : n < env.stack)
    (hb : LList (replOf env x f) (opened (r.attrs.all Attr.isEmpty) [] ops) n
      (basicAttrs env x o.addSource r) bm)
    (hp : LPlace (replOf env x f) n [] ops r.attrs pl ok) :
    ∃ h b, (H.plain (newHandler env o x)).derive ops = some h ∧
      h.handle none r = .line (b ++ [0x0A]) ∧ ((∃ t, Denotes b t) ↔ Whole bm pl ok) ∧
      (Whole bm pl ok → Denotes b (.obj (shapeTrees bm ++ pl))) := by
  obtain ⟨h, b, h1, h2, h3, h4⟩ := handle_hollow ho hn hb hp
  exact ⟨h, b, h1, h2, ⟨h4, fun hw => ⟨_, (h3 hw).1⟩⟩, fun hw => (h3 hw).1⟩

/-! ### Examples -/

theorem valDeep_resolve : ∀ v : Value, valDeep v.resolve = valDeep v
  | .logValuer _ r => by rw [Value.resolve, valDeep]; exact valDeep_resolve r
  | .group _ | .any _ | .bool _ | .duration _ | .float64 _ | .int64 _ | .string _ | .time _
  | .uint64 _ => rfl

theorem deep_mem {b : Attr} {as : List Attr} (h : b ∈ as) : attrDeep b ≤ listDeep as := by
  induction as with
  | nil => cases h
  | cons a as ih =>
    simp only [listDeep]
    rcases List.mem_cons.1 h with rfl | h
    · omega
    · have := ih h; omega

/-- Dropping a key is fitting. -/
theorem dropKey_fitting (env : Env) (l key : Bytes) : Fitting env l (dropKey key) attrDeep where
  clean := by
    rintro gs ⟨k, v⟩ ha hv
    simp only [AttrFit] at ha
    have gone : OutFit env l emptyAttr := by
      simp only [OutFit, emptyAttr, LeafClean, AnyClean]; exact ⟨by decide, trivial⟩
    cases v with
    | logValuer o r => cases hv
    | group as => exact ha
    | _ =>
      simp only [dropKey]
      split
      · exact gone
      · exact ha
  ends := by
    rintro gs ⟨k, v⟩ k' as h b hb
    have hd := deep_mem hb
    have hs : attrDeep (Solved b) = attrDeep b := by
      obtain ⟨kb, vb⟩ := b
      simp only [Solved, attrDeep, Attr.value, valDeep_resolve]
    cases v with
    | group bs =>
      simp only [dropKey, Attr.mk.injEq, Value.group.injEq] at h
      rw [h.2, hs]
      simp only [attrDeep, valDeep]
      omega
    | _ =>
      simp only [dropKey] at h
      split at h <;> cases h

/-- A record with a group whose single member is dropped, at the end of another group at the end. -/
def lastHollow : Record :=
  { time := none, level := 0, message := b!"m",
    attrs := [Sample.i b!"b" 2, .grp b!"h" [Sample.i b!"c" 3, .grp b!"g" [Sample.i b!"a" 1]]] }

/-- Chain of the examples: the list given to WithAttrs ends with a group that is emptied. -/
def hollowOps : List Op := [.attrs [.grp b!"e" [Sample.i b!"a" 1]], .group b!"w"]

theorem plain_basics (r : Record) (hr : r.time = none) (hl : r.level = 0) (hm : r.message = b!"m") (hp : r.pc = 0)
    (gs : List Bytes) (n : Nat) :
    LList (replOf Sample.env Sample.extras (dropKey b!"a")) gs n (basicAttrs Sample.env Sample.extras false r)
      [(b!"level", .leaf (.str b!"INFO")), (b!"msg", .leaf (.str b!"m"))] := by
  obtain ⟨time, level, message, pc, attrs⟩ := r
  subst hr hl hm hp
  have e : basicAttrs Sample.env Sample.extras false ⟨none, 0, b!"m", 0, attrs⟩ =
      [.mk b!"level" (.string b!"INFO"), .mk b!"msg" (.string b!"m")] := rfl
  rw [e]
  refine .cons (x := [_]) ?_ (.cons (x := [_]) (y := []) ?_ .nil)
  · exact .leaf (v := .string b!"INFO") rfl rfl (by decide) ⟨by simp only [LeafClean]; decide, rfl⟩
  · exact .leaf (v := .string b!"m") rfl rfl (by decide) ⟨by simp only [LeafClean]; decide, rfl⟩

theorem int_left (k : Bytes) (i : Int) (gs : List Bytes) (n : Nat) (hk : Utf8.Valid k) (hd : (k == b!"a") = false) :
    LAttr (replOf Sample.env Sample.extras (dropKey b!"a")) gs n (Sample.i k i) [(k, .leaf (.num (decInt i)))] := by
  refine .leaf (v := .int64 i) ?_ (by cases k <;> rfl) hk ⟨by simp only [LeafClean], rfl⟩
  simp [Repl.apply, replOf, Sample.i, Value.resolve, dropKey, hd]

theorem group_emptied (k : Bytes) (gs : List Bytes) (n : Nat) (hk : Utf8.Valid k) (hne : k ≠ []) :
    LAttr (replOf Sample.env Sample.extras (dropKey b!"a")) gs (n + 1) (.grp k [Sample.i b!"a" 1]) [(k, .group [])] :=
  .group (as := [Sample.i b!"a" 1]) rfl hne hk rfl (.cons (x := []) (y := []) (.gone rfl) .nil)

/-- A case meeting the hypotheses where the line is JSON: all emptied groups come last, the one
given to WithAttrs in its list. -/
theorem whole_case : OpsFit Sample.env Sample.extras.timeFormat hollowOps ∧
    RecordClean Sample.env Sample.extras { lastHollow with attrs := [] } ∧
    ListFit Sample.env Sample.extras.timeFormat lastHollow.attrs ∧
    Ranked attrDeep 2 hollowOps (basicAttrs Sample.env Sample.extras false lastHollow ++ lastHollow.attrs) ∧
    2 < Sample.env.stack ∧
    LPlace (replOf Sample.env Sample.extras (dropKey b!"a")) 2 [] hollowOps lastHollow.attrs
      [(b!"e", .obj []), (b!"w", .obj [(b!"b", .num (decInt 2)),
        (b!"h", .obj [(b!"c", .num (decInt 3)), (b!"g", .obj [])])])] true := by
  refine ⟨?_, ?_, ?_, ?_, by decide, ?_⟩
  · simp only [hollowOps, OpsFit, ListFit, AttrFit, ValFit, Attr.grp, Sample.i, LeafClean]
    exact ⟨⟨⟨by decide, ⟨by decide, trivial⟩, trivial⟩, trivial⟩, by decide, trivial⟩
  · exact { Sample.record_clean with
      time := by intro t ht; cases ht
      level := by decide
      message := by decide
      function := by decide
      file := by decide
      attrs := by simp only [ListClean] }
  · simp only [lastHollow, ListFit, AttrFit, ValFit, Attr.grp, Sample.i, LeafClean]
    exact ⟨⟨by decide, trivial⟩, ⟨by decide, ⟨by decide, trivial⟩, ⟨by decide, ⟨by decide, trivial⟩, trivial⟩, trivial⟩, trivial⟩
  · constructor
    · simp [hollowOps, Solved, attrDeep, valDeep, listDeep, Attr.grp, Sample.i, Value.resolve]
    · simp [basicAttrs, lastHollow, Solved, attrDeep, valDeep, listDeep, Attr.grp, Sample.i, Value.resolve]
  · simp only [hollowOps, LPlace]
    refine ⟨[(b!"e", .group [])], _, true, .cons (x := [_]) (y := []) (group_emptied _ _ _ (by decide) (by simp)) .nil,
      ?_, rfl, rfl⟩
    rw [if_neg (by decide), if_neg (by decide)]
    refine ⟨by decide, _, ⟨[(b!"b", .leaf (.num (decInt 2))),
      (b!"h", .group [(b!"c", .leaf (.num (decInt 3))), (b!"g", .group [])])], ?_, rfl, rfl⟩, rfl⟩
    refine .cons (x := [_]) (int_left _ _ _ _ (by decide) (by decide)) (.cons (x := [_]) (y := []) ?_ .nil)
    refine .group (as := [Sample.i b!"c" 3, .grp b!"g" [Sample.i b!"a" 1]]) rfl (by simp) (by decide) rfl ?_
    exact .cons (x := [_]) (int_left _ _ _ _ (by decide) (by decide)) (.cons (x := [_]) (y := [])
      (group_emptied _ _ _ (by decide) (by simp)) .nil)

/-- The line written in that case. -/
example : ((H.plain (newHandler Sample.env { replace := some (dropKey b!"a") } Sample.extras)).derive
      hollowOps).map (·.handle none lastHollow) =
    some (.line b!"{\"level\": \"INFO\", \"msg\": \"m\", \"e\": {}, \"w\": {\"b\": 2, \"h\": {\"c\": 3, \"g\": {}}}}\n") := by
  decide +kernel

/-- A case meeting the hypotheses of `C17_flash_given_partial` where the line is not JSON: the
shapes of `emptied`, a group that lost its member before another attribute. -/
example : LList (replOf Sample.env Sample.extras (dropKey b!"a")) (opened (emptied.attrs.all Attr.isEmpty) [] []) 1
      (basicAttrs Sample.env Sample.extras false emptied)
      [(b!"level", .leaf (.str b!"INFO")), (b!"msg", .leaf (.str b!"m"))] ∧
    LPlace (replOf Sample.env Sample.extras (dropKey b!"a")) 1 [] [] emptied.attrs
      [(b!"g", .obj []), (b!"b", .num (decInt 2))] false ∧
    ¬ Whole [(b!"level", .leaf (.str b!"INFO")), (b!"msg", .leaf (.str b!"m"))]
      [(b!"g", .obj []), (b!"b", .num (decInt 2))] false := by
  refine ⟨plain_basics _ rfl rfl rfl rfl _ _, ?_, fun h => by cases h.2.1⟩
  refine ⟨[(b!"g", .group []), (b!"b", .leaf (.num (decInt 2)))], ?_, rfl, rfl⟩
  exact .cons (x := [_]) (group_emptied _ _ _ (by decide) (by simp)) (.cons (x := [_]) (y := [])
    (int_left _ _ _ _ (by decide) (by decide)) .nil)

end Verif.Props.FlashHollow
