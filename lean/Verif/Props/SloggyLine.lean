import Verif.Sloggy.Clean
import Verif.Sloggy.Flat
import Verif.Sloggy.QuoteLemmas
import Verif.Flash.Sample
import Verif.Spec.JsonSound

/-
Properties C16, C18 (sloggy halves), C19 and C20: the line sloggy writes.
-/

set_option linter.unusedSimpArgs false

namespace Verif.Props.SloggyLine
open Slog Json LogTree Sloggy
open Flash (EnvClean)
open Flash.Sample (env env_clean i s lv)

/-! ### C20 -/

/-- C20 in full: every string is rendered as a JSON string that decodes to it. -/
def C20_statement : Prop :=
  ∀ (p : Nat → Bool) (s : Bytes), Utf8.Valid s →
    ∃ body, quote p s = 0x22 :: (body ++ [0x22]) ∧ decodeBody body = some s

/-- C20 is false: the bell character (valid UTF-8) comes out as `\a`. -/
theorem C20_sloggy_bell : ¬ C20_statement := by
  intro h
  obtain ⟨body, h1, h2⟩ := h (fun _ => true) [0x07] (by decide)
  have e : quote (fun _ => true) [0x07] = 0x22 :: ([0x5C, 0x61] ++ [0x22]) := by decide +kernel
  rw [e] at h1
  simp only [List.cons.injEq, true_and, List.append_cancel_right_eq] at h1
  subst h1
  revert h2
  decide +kernel

/-- C20, exactly where it holds: the rendering is a legal JSON string exactly for
the strings in `Quotable`, and for these it decodes to the original. All of
them are valid UTF-8. -/
theorem C20_sloggy_string_partial (p : Nat → Bool) (s : Bytes) :
    ∃ body, quote p s = 0x22 :: (body ++ [0x22]) ∧
      ((decodeBody body).isSome = true ↔ Quotable p s) ∧
      (decodeBody body = some s ↔ Quotable p s) ∧ (Quotable p s → Utf8.Valid s) :=
  ⟨quoteBody p s, rfl, (quoteBody_iff p s).2, (quoteBody_iff p s).1, Quotable.valid⟩

/-- Quotes, backslash, line ends, an unprintable character and a printable one
beyond the basic plane: quotable. DEL and a malformed byte: not. -/
example : Quotable (fun n => n != 0xAD) b!"a\"\\\n­😀" :=
  .byte rfl (.byte rfl (.byte rfl (.byte rfl (.two rfl rfl
    (.four (n := 0x1F600) (s := []) (by decide) (by decide) rfl .nil)))))

example : decodeBody (quoteBody (fun _ => true) [0x7F]) = none ∧
    decodeBody (quoteBody (fun _ => true) [0x80]) = none ∧
    decodeBody (quoteBody (fun n => n != 0xAD) b!"a­") = some b!"a­" := by
  decide +kernel

/-! ### C19 -/

/-- If a run with any writer succeeds, it did what the run with a perfect writer does. -/
theorem handle_ok {h : H} {ctx : Flash.Ctx} {w : Writer} {r : Record} {st0 st : St}
    (h0 : h.handle ctx sure r = .ok st0) (h1 : h.handle ctx w r = .ok st) : st = st0 := by
  have hf := H.handle_follows h ctx w r
  rw [h0, h1] at hf
  obtain ⟨_, f2, f3⟩ := hf
  rcases first_failure w st0.out.length with hw | ⟨i, k, h1, h2, h3⟩
  · have := f2 fun i _ hi => hw i hi
    simpa using this
  · obtain ⟨s, e⟩ := f3 i k (Nat.zero_le _) h1 (fun j _ hj => h2 j hj) h3
    cases e

/-- C19 without ReplaceAttr. For every chain and record with printable content the
handler exists, a writer that does not fail gets the line, and with any writer a
successful call has written exactly: one JSON object with the built-in members
and the attributes as the specification `placeBy` places them, then CR LF. -/
theorem C19_sloggy_line (env : Env) (o : Flash.Options) (ops : List Op) (r : Record)
    (ho : o.replace = none) (he : EnvClean env) (hops : SOpsClean env ops) (hr : SRecordClean env r)
    (hd : max (opsDeep ops) (listDeep r.attrs) < env.stack) :
    ∃ h pl b, (H.plain (newHandler env o)).derive ops = some h ∧
      placeBy (sLeafTree env) ops r.attrs = some pl ∧
      LineText b (.obj (sBuiltins env o.addSource r ++ pl)) ∧
      (∃ st, h.handle none sure r = .ok st) ∧
      ∀ w st, h.handle none w r = .ok st → st.out.flatten = b ++ [0x0D, 0x0A] := by
  obtain ⟨h, pl, st, b, h1, h2, h3, h4, h5⟩ := handle_clean (o := o) ho he hops hr hd
  exact ⟨h, pl, b, h1, h2, h5, ⟨st, h3⟩, fun w st' hw => by rw [handle_ok h3 hw, h4]⟩

/-- A sample record: a group, a LogValuer, an `any` shown through json.Marshal. -/
def record : Record :=
  { time := some 7, level := 3, message := b!"héllo \"w\"", pc := 3,
    attrs := [.grp b!"h" [i b!"c" (-2), emptyAttr, .grp b!"" [.mk b!"d" (.bool true)]],
      .grp b!"e" [], lv b!"f" (.group [s b!"z" b!"y"]),
      .mk b!"j" (.any (.obj { marshal := .ok b!"[1,2]" }))] }

theorem time_quotable (t : Nat) : Quotable env.isPrint (env.formatTime sLayout t) :=
  .byte (a := 0x54) rfl (quotable_ascii (digits_ascii (decNat_digits t)))

theorem sample_clean : SOpsClean env Flash.Sample.ops ∧ SRecordClean env record := by
  have q : ∀ {s : Bytes}, s.all (fun a => 0x20 ≤ a && a < 0x7F) = true → Quotable env.isPrint s :=
    quotable_ascii
  refine ⟨?_, ?_⟩
  · simp only [Flash.Sample.ops, SOpsClean, SListClean, i, s, SAttrClean, SValClean, SLeafClean]
    exact ⟨⟨⟨q (by decide), trivial⟩, trivial⟩, by decide,
      ⟨⟨q (by decide), .byte rfl (.byte rfl (.byte rfl .nil))⟩, trivial⟩, trivial⟩
  · refine ⟨fun t _ => time_quotable t, ?_, by decide, by decide, ?_⟩
    · exact .byte rfl (.two rfl rfl (.byte rfl (.byte rfl (.byte rfl (.byte rfl (.byte rfl (.byte rfl
        (.byte rfl .nil))))))))
    · simp only [record, SListClean, i, s, lv, Attr.grp, emptyAttr, SAttrClean, SValClean, SLeafClean,
        SAnyClean, Value.resolve]
      refine ⟨⟨q (by decide), ⟨q (by decide), trivial⟩, ⟨q (by decide), trivial⟩, ⟨q (by decide),
        ⟨q (by decide), trivial⟩, trivial⟩, trivial⟩, ⟨q (by decide), trivial⟩,
        ⟨q (by decide), ⟨rfl, rfl⟩, ⟨q (by decide), q (by decide)⟩, trivial⟩,
        ⟨q (by decide), .arr [.num b!"1", .num b!"2"], ?_⟩, trivial⟩
      exact ⟨denotes_of_parse (by rfl) (by decide), by decide⟩

/-- A case meeting the hypotheses. -/
example : EnvClean env ∧ SOpsClean env Flash.Sample.ops ∧ SRecordClean env record ∧
    max (opsDeep Flash.Sample.ops) (listDeep record.attrs) < env.stack :=
  ⟨env_clean, sample_clean.1, sample_clean.2, by decide⟩

/-- The line written in that case. -/
example : ((H.plain (newHandler env { addSource := true })).derive Flash.Sample.ops).map
      (fun h => match h.handle none sure record with
        | .ok st => st.out.flatten
        | _ => []) =
    some b!"{\"time\": \"T7\", \"level\": \"INFO+3\", \"msg\": \"héllo \\\"w\\\"\", \"source\": {\"file\":\"main.go\",\"function\":\"main.f\",\"line\":3}, \"a\": 1, \"g\": {\"b\": \"x\\ty\", \"h\": {\"c\": -2, \"d\": true}, \"f\": {\"z\": \"y\"}, \"j\": [1,2]}}\r\n" := by
  decide +kernel

/-- C19 with or without ReplaceAttr, LogValuers of any kind: if the built-in
fields stand for the members `bm`, at least one, and the attributes for `pl`
(specifications `SList` and `SPlace`), every successful call has written one JSON
object with exactly those members, then CR LF. -/
theorem C19_sloggy_replaced (env : Env) (o : Flash.Options) (ops : List Op) (r : Record) (n : Nat)
    (bm pl : List (Bytes × Tree)) (hn : n < env.stack)
    (hb : SList (viewOf env o) (opened (r.attrs.all Attr.isEmpty) [] ops) n
      (basics env o.addSource r) bm) (hne : bm ≠ [])
    (hp : SPlace (viewOf env o) n [] ops r.attrs pl) :
    ∃ h b, (H.plain (newHandler env o)).derive ops = some h ∧
      LineText b (.obj (bm ++ pl)) ∧ (∃ st, h.handle none sure r = .ok st) ∧
      ∀ w st, h.handle none w r = .ok st → st.out.flatten = b ++ [0x0D, 0x0A] := by
  obtain ⟨h, st, b, h1, h2, h3, h4⟩ := handle_shown hn hb hne hp
  exact ⟨h, b, h1, h4, ⟨st, h2⟩, fun w st' hw => by rw [handle_ok h2 hw, h3]⟩

/-- The condition that a built-in field is kept. -/
def C19_without_builtins_statement : Prop :=
  ∀ (env : Env) (o : Flash.Options) (ops : List Op) (r : Record) (n : Nat)
    (bm pl : List (Bytes × Tree)), n < env.stack →
    SList (viewOf env o) (opened (r.attrs.all Attr.isEmpty) [] ops) n (basics env o.addSource r) bm →
    SPlace (viewOf env o) n [] ops r.attrs pl →
    ∀ h st b, (H.plain (newHandler env o)).derive ops = some h → h.handle none sure r = .ok st →
      st.out.flatten = b ++ [0x0D, 0x0A] → ∃ t, Denotes b t

/-- A replacement function that drops the built-in fields. -/
def dropBasics : AttrFn := fun _ a => if sBasic a.key then emptyAttr else a

theorem view_gone (o : Flash.Options) (ho : o.replace = some dropBasics) (gs : List Bytes) (a : Attr)
    (ha : sBasic a.key = true) : (viewOf env o).gone gs a = true := by
  have hv : (viewOf env o).f = some dropBasics := ho
  simp only [View.gone, View.apply, hv, dropBasics, ha, if_true]
  cases a.isEmpty <;> rfl

/-- The condition is needed: with a prefix and no built-in field the line starts
with `{, `. -/
theorem C19_sloggy_no_builtins : ¬ C19_without_builtins_statement := by
  intro h
  obtain ⟨t, c, hc, _⟩ := h env { replace := some dropBasics } [.attrs [s b!"a" b!"x"]]
    { time := none, level := 0, message := b!"m" } 1 [] [(b!"a", .str b!"x")] (by decide)
    (.cons (x := []) (y := []) (.gone (view_gone _ rfl _ _ (by decide)))
      (.cons (x := []) (y := []) (.gone (view_gone _ rfl _ _ (by decide))) .nil))
    ⟨[(b!"a", .str b!"x")], [], .cons (x := [_]) (y := [])
      (.leaf (k := b!"a") (v := .string b!"x") (by decide) rfl (quotable_ascii (by decide))
        ⟨quotable_ascii (by decide), rfl⟩) .nil,
      .nil, rfl⟩
    _ _ b!"{, \"a\": \"x\"}" rfl rfl (by decide +kernel)
  exact not_val_of_parse (by decide +kernel) ⟨c, hc⟩

/-! ### C16 -/

/-- C16, what sloggy does: with a replacement function the attributes printed are
those it returns, in order, empty ones left out. It is called with the names
given to WithGroup, outermost first, and with no names for built-in fields
(`View.apply`). It is not told the names of group attributes around an
attribute, see `C16_sloggy_nested_names`. -/
theorem C16_sloggy_replaced_partial (env : Env) (o : Flash.Options) (f : AttrFn) (ops : List Op)
    (r : Record) (n : Nat) (bm pl : List (Bytes × Tree)) (_ho : o.replace = some f) (hn : n < env.stack)
    (hb : SList ⟨env, some f⟩ (opened (r.attrs.all Attr.isEmpty) [] ops) n (basics env o.addSource r) bm)
    (hne : bm ≠ []) (hp : SPlace ⟨env, some f⟩ n [] ops r.attrs pl) :
    ∃ h st b, (H.plain (newHandler env o)).derive ops = some h ∧ h.handle none sure r = .ok st ∧
      st.out.flatten = b ++ [0x0D, 0x0A] ∧ LineText b (.obj (bm ++ pl)) := by
  have e : (⟨env, some f⟩ : View) = viewOf env o := by rw [← _ho]; rfl
  rw [e] at hb hp
  exact handle_shown hn hb hne hp

/-- A replacement function that shows the last group name it was told, and drops
the level. -/
def tell : AttrFn := fun gs a =>
  match a with
  | .mk k (.group as) => .mk k (.group as)
  | .mk k v =>
    if k == b!"level" then emptyAttr else if k == b!"msg" then .mk k v
    else .mk k (.string (gs.getLastD b!"none"))

/-- The record used with `tell`. -/
def tellRecord : Record :=
  { time := none, level := 0, message := b!"m", attrs := [.grp b!"g" [i b!"a" 1]] }

/-- A case meeting the hypotheses of `C16_sloggy_replaced_partial` and
`C19_sloggy_replaced`. -/
theorem tell_case :
    SList ⟨env, some tell⟩ (opened (tellRecord.attrs.all Attr.isEmpty) [] [.group b!"h"]) 1
      (basics env false tellRecord) [(b!"msg", .str b!"m")] ∧
    SPlace ⟨env, some tell⟩ 1 [] [.group b!"h"] tellRecord.attrs
      [(b!"h", .obj [(b!"g", .obj [(b!"a", .str b!"h")])])] := by
  have q : ∀ {s : Bytes}, s.all (fun a => 0x20 ≤ a && a < 0x7F) = true → Quotable env.isPrint s :=
    quotable_ascii
  refine ⟨?_, ?_⟩
  · refine .cons (x := []) (y := [_]) (.gone (by decide)) (.cons (x := [_]) (y := []) ?_ .nil)
    exact .leaf (v := .string b!"m") (by decide) rfl (q (by decide)) ⟨q (by decide), rfl⟩
  · show SPlace _ _ _ _ [.grp b!"g" [i b!"a" 1]] _
    have hq : ¬ (([.grp b!"g" [i b!"a" 1]] : List Attr).all Attr.isEmpty && groupsOnly []) = true := by
      decide
    rw [SPlace, if_neg (by decide), if_neg hq]
    refine ⟨by decide, _, ?_, rfl⟩
    rw [SPlace]
    refine .cons (x := [_]) (y := []) (.group (as := [i b!"a" 1]) (ms := [_]) (by decide) rfl (by decide)
      (q (by decide)) rfl ?_) .nil
    exact .cons (x := [_]) (y := []) (.leaf (v := .string b!"h") (by decide) rfl (q (by decide))
      ⟨q (by decide), rfl⟩) .nil

/-- With it, the line has the message, and in the group the name of the group. -/
example : ∃ h st b, (H.plain (newHandler env { replace := some tell })).derive [.group b!"h"] = some h ∧
    h.handle none sure tellRecord = .ok st ∧ st.out.flatten = b ++ [0x0D, 0x0A] ∧
    LineText b (.obj [(b!"msg", .str b!"m"), (b!"h", .obj [(b!"g", .obj [(b!"a", .str b!"h")])])]) :=
  C16_sloggy_replaced_partial env { replace := some tell } tell [.group b!"h"] tellRecord 1 _ _ rfl (by decide) tell_case.1 (by simp) tell_case.2

/-- C16 in full, for an attribute in a group attribute: what is printed is what
the function returns when it is told the name of the group. -/
def C16_statement : Prop :=
  ∀ (env : Env) (f : AttrFn) (r : Record) (k g s s' : Bytes) (v : Value) (st : St) (b : Bytes)
    (bm : List (Bytes × Tree)),
    f [] (.grp g [.mk k v]) = .grp g [.mk k v] → f [g] (.mk k v) = .mk k (.string s) →
    (H.plain (newHandler env { replace := some f })).handle none sure
      { r with attrs := [.grp g [.mk k v]] } = .ok st →
    st.out.flatten = b ++ [0x0D, 0x0A] → Denotes b (.obj (bm ++ [(g, .obj [(k, .str s')])])) → s' = s

/-- C16 is false in sloggy: the name of the group attribute is not passed. -/
theorem C16_sloggy_nested_names : ¬ C16_statement := by
  intro h
  have := h env tell tellRecord b!"a" b!"g" b!"g" b!"none" (.int64 1)
    { out := [b!"{", b!"\"msg\"", b!": ", b!"\"m\"", b!", ", b!"\"g\"", b!": ", b!"{", b!"\"a\"", b!": ",
      b!"\"none\"", b!"}", [], b!"}", b!"\r\n"], started := true }
    b!"{\"msg\": \"m\", \"g\": {\"a\": \"none\"}}" [(b!"msg", .str b!"m")] rfl rfl
    (by decide +kernel) (by decide) (denotes_of_parse (by rfl) (by decide))
  revert this
  decide

/-! ### C18 -/

/-- C18, sloggy without ReplaceAttr: for every chain, record, context and writer
(failing or not), replacing the LogValuers at any depth by the values they stand
for changes nothing, byte for byte and call for call, if all of these have
something to show. -/
theorem C18_sloggy_without_replace (env : Env) (o : Flash.Options) (ops : List Op) (r : Record)
    (ctx : Flash.Ctx) (w : Writer) (ho : o.replace = none) (hops : OpsSolid ops) (hr : ListSolid r.attrs)
    (hc : ctx = none) :
    ((H.plain (newHandler env o)).derive (ops.map flatOp)).map
        (·.handle ctx w { r with attrs := flatList r.attrs }) =
      ((H.plain (newHandler env o)).derive ops).map (·.handle ctx w r) := by
  subst hc
  rw [derive_flat ops (.plain (newHandler env o)) ho hops]
  cases hd : (H.plain (newHandler env o)).derive ops with
  | none => rfl
  | some h =>
    have hsame : ∀ (ops : List Op) (h h' : H), h.core.options = o → h.root.options = o →
        h.derive ops = some h' → h'.core.options = o ∧ h'.root.options = o := by
      intro ops
      induction ops with
      | nil => intro h h' h1 h2 he; cases he; exact ⟨h1, h2⟩
      | cons op ops ih =>
        intro h h' h1 h2 he
        cases op with
        | attrs as =>
          simp only [H.derive, H.step] at he
          cases hw : h.withAttrs as with
          | none => rw [hw] at he; cases he
          | some h1' =>
            rw [hw] at he
            refine ih h1' h' ?_ ?_ he <;>
            · simp only [H.withAttrs, Handler.withAttrs, Option.map_eq_some_iff] at hw
              obtain ⟨p, hp, rfl⟩ := hw
              split at hp <;> cases hp <;> exact h1
        | group n =>
          simp only [H.derive, H.step, Option.bind_some] at he
          unfold H.withGroup at he
          split at he
          · exact ih (.plain h.core) _ h1 h1 he
          · exact ih (.group (h.core.openGroup n) n h) _ h1 h2 he
    obtain ⟨h1, h2⟩ := hsame ops (.plain (newHandler env o)) h rfl rfl hd
    have hh : ∀ h : Handler, h.options = o →
        h.handle w { r with attrs := flatList r.attrs } = h.handle w r := by
      intro h e
      have hf : (h.cfg w).replace = none := by show h.options.replace = none; rw [e]; exact ho
      have : (fun st => addAttributes (h.cfg w) (flatList r.attrs) st) =
          fun st => addAttributes (h.cfg w) r.attrs st :=
        funext fun st => addAttributes_flat hf _ st hr
      simp only [Handler.handle, this]
      rfl
    simp only [Option.map_some, Option.some.injEq]
    have hall := flatList_empty hr
    cases hq : r.attrs.all Attr.isEmpty with
    | false =>
      rw [H.handle_loud h w r hq, H.handle_loud h w _ (by show (flatList r.attrs).all _ = _; rw [hall, hq]),
        hh _ h1]
    | true =>
      rw [H.handle_quiet h none w r hq,
        H.handle_quiet h none w _ (by show (flatList r.attrs).all _ = _; rw [hall, hq]), hh _ h2]

/-- LogValuers for a group and, within it, for a duration. -/
example : ListSolid [lv b!"f" (.group [lv b!"d" (.duration 2)]), emptyAttr, lv b!"" (.string [])] ∧
    flatList [lv b!"f" (.group [lv b!"d" (.duration 2)])] = [.grp b!"f" [.mk b!"d" (.duration 2)]] := by
  refine ⟨?_, rfl⟩
  simp only [lv, emptyAttr, ListSolid, AttrSolid, ValSolid, Value.resolve, Solid, true_and, and_true]
  exact ⟨⟨⟨rfl, rfl⟩, rfl, rfl⟩, rfl, rfl⟩

/-- C18 in full for sloggy, whatever the options. -/
def C18_statement : Prop :=
  ∀ (env : Env) (o : Flash.Options) (r : Record) (k : Bytes) (j : Obj) (v : Value),
    Solid k v.resolve →
    (H.plain (newHandler env o)).handle none sure { r with attrs := [.mk k (.logValuer j v)] } =
      (H.plain (newHandler env o)).handle none sure { r with attrs := [.mk k v] }

/-- C18 is false in sloggy with ReplaceAttr: the function gets the LogValuer
itself, and if it returns it, the object is printed and not what it stands for. -/
theorem C18_sloggy_with_replace : ¬ C18_statement := by
  intro h
  have := h env { replace := some fun _ a => a } { time := none, level := 0, message := b!"m" } b!"d"
    { marshal := .ok b!"{}" } (.int64 5) ⟨rfl, rfl⟩
  revert this
  decide +kernel

/-- Without ReplaceAttr it is false for LogValuers with nothing to show: under an
empty key, nil is printed. -/
theorem C18_sloggy_nil : ∃ (env : Env) (r : Record) (j : Obj),
    (H.plain (newHandler env {})).handle none sure { r with attrs := [.mk [] (.logValuer j (.any .nil))] } ≠
      (H.plain (newHandler env {})).handle none sure { r with attrs := [.mk [] (.any .nil)] } :=
  ⟨env, { time := none, level := 0, message := b!"m" }, { marshal := .ok b!"{}" }, by decide +kernel⟩

end Verif.Props.SloggyLine
