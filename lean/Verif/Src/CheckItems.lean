import Verif.Src.CheckTypes
import Verif.Src.TraitsTypes
/-
The code of tables keeps the type rules: what does not depend on the fields.
-/
namespace Butte.Src.Check
open Ir (QIdent All₂)
open Rs (Program Hygienic modOf pathTokens fwdPath wipPath Scope)

/-- What the code of a table relies on, as to its types. -/
structure TableTypes (F : File) (m : List Str) (n : Str) (ns : Option QIdent) (fs : List Ir.Field) : Prop where
  traits : TableTraits F m n ns fs
  struct : ∃ doc, F.item m n = some (Full.tableStruct n doc)
  builder : F.item m (n ++ c!"Builder") = some (Full.builderStruct n)

section
variable {F : File} {k : TyEnv}

theorem life_means {l : Str} {r : Region} (h1 : l ≠ c!"_") (h2 : l ≠ c!"static") (h : find k.lives l = some r) :
    LifeMeans k (lifeOf l) r := by
  rw [lifeOf, if_neg h1]
  show if l = c!"static" then r = .static else find k.lives l = some r
  rw [if_neg h2]
  exact h

theorem ne_self_of {P : Program} {sc : Scope} {n : Str} {m : List Str} {k : Str} (hs : sc.self = none)
    (h : Rs.resolve P sc [n] = some (.item m k)) : n ≠ c!"Self" := by
  rintro rfl
  simp [Rs.resolve, hs] at h

variable {m : List Str} {n : Str} {ns : Option QIdent} {fs : List Ir.Field}

theorem TableTypes.paths (T : TableTypes F m n ns fs) {gs : List Str} (hg : gs = [] ∨ gs = [c!"B"]) : Paths F.prog m gs :=
  Paths.of T.traits.hygienic m hg

theorem TableTypes.kind (T : TableTypes F m n ns fs) : F.kind (.item m n) = some (0, 1) := by
  obtain ⟨doc, h⟩ := T.struct
  simp only [File.kind, h]
  rfl

theorem TableTypes.kindBuilder (T : TableTypes F m n ns fs) : F.kind (.item m (n ++ c!"Builder")) = some (2, 0) := by
  simp only [File.kind, T.builder]
  rfl

/-- The type of a table. -/
abbrev tblTy (m : List Str) (n : Str) (t : LTy) : LTy := .app (.item m n) [] [t]
/-- The type of a builder. -/
abbrev bldTy (m : List Str) (n : Str) (r s : Region) : LTy := .app (.item m (n ++ c!"Builder")) [r, s] []

theorem TableTypes.self_ne (T : TableTypes F m n ns fs) (x : List Str) : (n :: x).head? ≠ some c!"Self" := by
  have := T.traits.ne_self
  simpa using this

theorem TableTypes.ofB (T : TableTypes F m n ns fs) (hm : k.sc.module = m) (hg : k.sc.generics = [c!"B"]) {t : LTy}
    (ht : find k.params c!"B" = some t) : Means F k (Full.ofB n) (tblTy m n t) := by
  refine .app (rs := []) (ts := [_]) (T.self_ne _) (T.traits.own _ (.inr hg) hm) T.kind (.one (.param (n := c!"B") ?_ ht))
  cases k with | mk sc _ _ _ _ _ =>
  cases sc
  cases hm
  cases hg
  exact resolve_B _ _ _

theorem B_means (hg : k.sc.generics = [c!"B"]) {t : LTy} (ht : find k.params c!"B" = some t) : Means F k (Full.word c!"B") t := by
  refine .param (n := c!"B") ?_ ht
  cases k with | mk sc _ _ _ _ _ =>
  cases sc
  cases hg
  exact resolve_B _ _ _

theorem tableB_means (A : Sees F k.sc) (hg : k.sc.generics = [c!"B"]) {t : LTy} (ht : find k.params c!"B" = some t) :
    Means F k Full.tableB (.butteOf c!"Table" t) := butteOf_means A rfl (B_means hg ht)

theorem TableTypes.ofBytes (T : TableTypes F m n ns fs) (A : Sees F k.sc) (hm : k.sc.module = m) (hg : k.sc.Ok) {l : Option Str} {r : Region}
    (hl : LifeMeans k (l.bind lifeOf) r) : Means F k (Full.ofBytes n l) (tblTy m n (.ref r false .bytes)) :=
  .app (rs := []) (ts := [_]) (T.self_ne _) (T.traits.own _ hg hm) T.kind (.one (bytes_means A hl))

theorem fbb_means (A : Sees F k.sc) {l s : Str} {r t : Region} (hl : LifeMeans k (lifeOf l) r) (hs : LifeMeans k (lifeOf s) t) :
    Means F k (Full.fbbTy l s) (.ref r true (.app (.butte c!"FlatBufferBuilder") [t] [])) :=
  .ref hl (butte_means A rfl (.life hs .nil))

theorem TableTypes.builderMeans (T : TableTypes F m n ns fs) (hm : k.sc.module = m) (hg : k.sc.Ok) {r s : Region}
    (hr : LifeMeans k (lifeOf c!"a") r) (hs : LifeMeans k (lifeOf c!"b") s) :
    Means F k (.path [n ++ c!"Builder"] false [.life c!"a", .life c!"b"]) (bldTy m n r s) := by
  refine .app (rs := [_, _]) (ts := []) ?_ (T.traits.builder _ hg hm) T.kindBuilder (.life hr (.life hs .nil))
  have := ne_self_of rfl (T.traits.builder ⟨m, [], none⟩ (.inl rfl) rfl)
  simpa using this

/-- The field of a table. -/
theorem TableTypes.fields (T : TableTypes F m n ns fs) (t : LTy) : FieldsOf F (tblTy m n t) [(c!"table", .butteOf c!"Table" t)] := by
  obtain ⟨doc, h⟩ := T.struct
  refine .mk h (.cons ⟨rfl, tableB_means (k := declEnv m [.ty c!"B"] [] [t]) (T.paths (.inr rfl)) rfl rfl⟩ .nil)

/-- The fields of a builder. -/
theorem TableTypes.builderFields (T : TableTypes F m n ns fs) (r s : Region) : FieldsOf F (bldTy m n r s)
    [(c!"fbb", .ref s true (.app (.butte c!"FlatBufferBuilder") [r] [])),
      (c!"start", .butteOf c!"WIPOffset" (.butte c!"TableUnfinishedWIPOffset"))] := by
  have A : Sees F (declEnv m [.life c!"a" none, .life c!"b" none] [r, s] []).sc := T.paths (.inl rfl)
  refine .mk T.builder (.cons ⟨rfl, fbb_means A (life_means (by decide) (by decide) rfl) (life_means (by decide) (by decide) rfl)⟩
    (.cons ⟨rfl, wip_means A (butte_means A rfl .nil)⟩ .nil))

theorem find_var {Γ : Locals} {X : Cx} {x : Str} {t : LTy} (h : find Γ x = some t) : Typed F X Γ (Full.v x) t := .place (.var h)

/-! ### Items -/

theorem tableStruct_checks (T : TableTypes F m n ns fs) (doc : Ast.Comment) : ItemChecks F m (Full.tableStruct n doc) := by
  intro f hf
  simp only [List.mem_singleton] at hf
  subst hf
  exact ⟨_, tableB_means (k := declEnv m [.ty c!"B"] [] [.param c!"B"]) (T.paths (.inr rfl)) rfl rfl⟩

/-- An `impl` with one function. -/
theorem impl_one {m : List Str} {gs : List GParam} {tr s : Ty} {bs : List (Str × Ty)} {is : List ImplItem} {f : Fn} {self : LTy}
    {assoc : List (Str × LTy)}
    (hl : (((s :: [tr]).flatMap Ty.lives).filter (· = none)).length ≤ 1)
    (hf : ∀ g, ImplItem.fn g ∈ is → g = f) (hc : implConsts is = [])
    (hs : Means F (headEnv m gs (ownRegions gs) (ownParams gs) (· = .header)) s self)
    (ha : AssocMean F (bodyEnv F m gs (ownRegions gs) (ownParams gs) s self []) (implTypes is) assoc)
    (hb : FnChecks F (bodyEnv F m gs (ownRegions gs) (ownParams gs) s self assoc) gs (bs.map (·.1)) f)
    (ht : TraitChecks F m gs (bodyEnv F m gs (ownRegions gs) (ownParams gs) s self assoc) self assoc [.fn f] tr) :
    ItemChecks F m (.impl gs (some tr) s bs is) := by
  refine ⟨hl, self, assoc, hs, ha, ?_, ?_, ?_⟩
  · intro b x t l h
    exfalso
    clear hf ha ht
    induction is with
    | nil => simp at h
    | cons i is ih =>
      cases i with
      | const => simp [implConsts] at hc
      | fn g => exact ih (by simpa [implConsts] using hc) (by simpa using h)
      | type => exact ih (by simpa [implConsts] using hc) (by simpa using h)
  · intro g hg
    rw [hf g hg]
    exact hb
  · rintro t ⟨⟩
    cases tr with
    | path p c as =>
      obtain ⟨d, rs, ts, h1, h2, h3⟩ := ht
      refine ⟨d, rs, ts, h1, h2, fun g hg => ?_⟩
      rw [hf g hg]
      exact h3 f (by simp)
    | ref => exact ht.elim
    | slice => exact ht.elim

/-- The one function of an `impl`. -/
theorem trait_one {m : List Str} {gs : List GParam} {k : TyEnv} {self : LTy} {assoc : List (Str × LTy)} {f : Fn} {p : List Str}
    {c : Bool} {as : List GArg} {d : Rs.Def} {rs : List Region} {ts us : List LTy} {res : LTy}
    (h1 : Rs.resolve F.prog ⟨m, typeParams gs, none⟩ p = some d)
    (h2 : ArgsMean F (headEnv m gs (ownRegions gs) (ownParams gs) (· = .header)) as rs ts)
    (h3 : TraitSig d rs ts self assoc f.name us res) (h4 : Sig F (f.env k gs) f bodyElide us res) :
    TraitChecks F m gs k self assoc [.fn f] (.path p c as) := by
  refine ⟨d, rs, ts, h1, h2, fun g hg => ?_⟩
  simp only [List.mem_singleton, ImplItem.fn.injEq] at hg
  subst hg
  exact ⟨us, res, h3, h4⟩

theorem tableFrom_checks (T : TableTypes F m n ns fs) : ItemChecks F m (Full.tableFrom n) := by
  have A := T.paths (gs := [c!"B"]) (.inr rfl)
  have hs : Sig F ((⟨[], false, c!"from", [], [.named c!"table" Full.tableB], some Full.selfTy, [], some Full.selfTable⟩ : Fn).env
      (bodyEnv F m [.ty c!"B"] [] [.param c!"B"] (Full.ofB n) (tblTy m n (.param c!"B")) []) [.ty c!"B"])
      ⟨[], false, c!"from", [], [.named c!"table" Full.tableB], some Full.selfTy, [], some Full.selfTable⟩ bodyElide
      [.butteOf c!"Table" (.param c!"B")] (tblTy m n (.param c!"B")) :=
    ⟨.named (tableB_means A rfl rfl) .nil, .self rfl⟩
  refine impl_one (self := tblTy m n (.param c!"B")) (assoc := []) ?_ ?_ rfl ?_ .nil ⟨?_, _, _, hs, ?_⟩ (trait_one (A.from_ _) (.one ?_) (.from _ _) hs)
  · simp [Full.ofB, Full.tableB, Full.word, Ty.lives, argLives]
  · simp
  · exact T.ofB rfl rfl rfl
  · simp [OneElided, Param.ty?, Full.tableB, Full.word, Ty.lives, argLives]
  · exact .value (.struct (.self rfl) (T.fields _) (.var (find_var rfl) .nil))
  · exact tableB_means A rfl rfl

theorem tableInto_checks (T : TableTypes F m n ns fs) : ItemChecks F m (Full.tableInto n) := by
  have A := T.paths (gs := [c!"B"]) (.inr rfl)
  have hs : Sig F ((⟨[], false, c!"from", [], [.named c!"s" (Full.ofB n)], some Full.selfTy, [], some (.field (Full.v c!"s") c!"table")⟩ : Fn).env
      (bodyEnv F m [.ty c!"B"] [] [.param c!"B"] Full.tableB (.butteOf c!"Table" (.param c!"B")) []) [.ty c!"B"])
      ⟨[], false, c!"from", [], [.named c!"s" (Full.ofB n)], some Full.selfTy, [], some (.field (Full.v c!"s") c!"table")⟩ bodyElide
      [tblTy m n (.param c!"B")] (.butteOf c!"Table" (.param c!"B")) :=
    ⟨.named (T.ofB rfl rfl rfl) .nil, .self rfl⟩
  refine impl_one (self := .butteOf c!"Table" (.param c!"B")) (assoc := []) ?_ ?_ rfl ?_ .nil ⟨?_, _, _, hs, ?_⟩ (trait_one (A.from_ _) (.one ?_) (.from _ _) hs)
  · simp [Full.ofB, Full.tableB, Full.word, Ty.lives, argLives]
  · simp
  · exact tableB_means A rfl rfl
  · simp [OneElided, Param.ty?, Full.ofB, Full.word, Ty.lives, argLives]
  · exact .value (.place (.field (.var rfl) (.refl _ _) (T.fields _) rfl))
  · exact T.ofB rfl rfl rfl

/-- `let table = butte::Table::new(buf, loc); Ok(Self { table })` -/
theorem newTable_block (T : TableTypes F m n ns fs) {X : Cx} {Γ : Locals} (A : Sees F X.env.sc) {t : LTy} (hb : find Γ c!"buf" = some t)
    (hl : find Γ c!"loc" = some .usize) (ho : find ((c!"table", LTy.butteOf c!"Table" t) :: Γ) c!"Ok" = none) (hs : X.env.self = some (tblTy m n t)) :
    Block F X Γ [Full.newTable] (some (Full.ok Full.selfTable)) (.result (tblTy m n t) .error) :=
  .let (.rtCall (p := [c!"butte", c!"Table"]) (A.butte _ _) (.tableNew _) (.cons (find_var hb) (.cons (find_var hl) .nil)))
    (.value (.ok ho (.struct (.self hs) (T.fields _) (.var (find_var rfl) .nil))))

theorem TableTypes.noVariants (T : TableTypes F m n ns fs) (t : LTy) : variantNames F (tblTy m n t) = [] := by
  obtain ⟨doc, h⟩ := T.struct
  simp only [variantNames, h, Full.tableStruct]

theorem tableFollow_checks (T : TableTypes F m n ns fs) : ItemChecks F m (Full.tableFollow n) := by
  have A := T.paths (gs := []) (.inl rfl)
  have ha := fun (k : TyEnv) (h : k.lives = [(c!"a", .named c!"a")]) =>
    life_means (k := k) (l := c!"a") (r := .named c!"a") (by decide) (by decide) (by rw [h]; rfl)
  have hs : Sig F ((⟨[Full.inlineAttr], false, c!"follow", [], [.named c!"buf" (Full.bytes (some c!"a")), .named c!"loc" (Full.word c!"usize")],
        some Full.innerResult, [Full.newTable], some (Full.ok Full.selfTable)⟩ : Fn).env
      (bodyEnv F m [.life c!"a" none] [.named c!"a"] [] (Full.ofBytes n (some c!"a")) (tblTy m n (.ref (.named c!"a") false .bytes))
        [(c!"Inner", tblTy m n (.ref (.named c!"a") false .bytes))]) [.life c!"a" none])
      ⟨[Full.inlineAttr], false, c!"follow", [], [.named c!"buf" (Full.bytes (some c!"a")), .named c!"loc" (Full.word c!"usize")],
        some Full.innerResult, [Full.newTable], some (Full.ok Full.selfTable)⟩ bodyElide
      [.ref (.named c!"a") false .bytes, .usize] (.result (tblTy m n (.ref (.named c!"a") false .bytes)) .error) :=
    ⟨.named (bytes_means A (ha _ rfl)) (.named (.usize (A.usize _)) .nil), resultTy_means A (.assoc rfl (by simp [T.noVariants]) rfl)⟩
  refine impl_one (self := tblTy m n (.ref (.named c!"a") false .bytes)) (assoc := [(c!"Inner", tblTy m n (.ref (.named c!"a") false .bytes))])
    ?_ ?_ rfl ?_ (.cons ⟨rfl, .self rfl⟩ .nil) ⟨?_, _, _, hs, ?_⟩ (trait_one (A.butte _ _) (.life (ha _ rfl) .nil) (.follow _ _ _) hs)
  · simp [Full.ofBytes, Full.bytes, Full.followTy, Full.word, Ty.lives, argLives]
    decide
  · simp
  · exact T.ofBytes A rfl (.inl rfl) (ha _ rfl)
  · simp [OneElided, Param.ty?, Full.bytes, Full.word, Ty.lives, argLives]
    decide
  · exact newTable_block T A rfl rfl rfl rfl

theorem tableFollowBuf_checks (T : TableTypes F m n ns fs) : ItemChecks F m (Full.tableFollowBuf n) := by
  have A := T.paths (gs := [c!"B"]) (.inr rfl)
  have hs : Sig F ((⟨[Full.inlineAttr], false, c!"follow_buf", [],
        [.named c!"buf" (.path [c!"Self", c!"Buf"] false []), .named c!"loc" (Full.word c!"usize")],
        some Full.innerResult, [Full.newTable], some (Full.ok Full.selfTable)⟩ : Fn).env
      (bodyEnv F m [.ty c!"B"] [] [.param c!"B"] (Full.ofB n) (tblTy m n (.param c!"B"))
        [(c!"Buf", .param c!"B"), (c!"Inner", tblTy m n (.param c!"B"))]) [.ty c!"B"])
      ⟨[Full.inlineAttr], false, c!"follow_buf", [],
        [.named c!"buf" (.path [c!"Self", c!"Buf"] false []), .named c!"loc" (Full.word c!"usize")],
        some Full.innerResult, [Full.newTable], some (Full.ok Full.selfTable)⟩ bodyElide
      [.param c!"B", .usize] (.result (tblTy m n (.param c!"B")) .error) :=
    ⟨.named (.assoc rfl (by simp [T.noVariants]) rfl) (.named (.usize (A.usize _)) .nil),
      resultTy_means A (.assoc rfl (by simp [T.noVariants]) rfl)⟩
  refine impl_one (self := tblTy m n (.param c!"B")) (assoc := [(c!"Buf", .param c!"B"), (c!"Inner", tblTy m n (.param c!"B"))])
    ?_ ?_ rfl ?_ (.cons ⟨rfl, B_means rfl rfl⟩ (.cons ⟨rfl, .self rfl⟩ .nil)) ⟨?_, _, _, hs, ?_⟩ (trait_one (A.butte _ _) .nil (.followBuf _ _ _) hs)
  · simp [Full.ofB, Full.word, Ty.lives, argLives]
  · simp
  · exact T.ofB rfl rfl rfl
  · simp [OneElided, Param.ty?, Full.word, Ty.lives, argLives]
  · exact newTable_block T A rfl rfl rfl rfl

theorem builderStruct_checks (T : TableTypes F m n ns fs) : ItemChecks F m (Full.builderStruct n) := by
  have A : Sees F (declEnv m [.life c!"a" none, .life c!"b" none] [.named c!"a", .named c!"b"] []).sc := T.paths (.inl rfl)
  intro f hf
  simp only [List.mem_cons, List.not_mem_nil, or_false] at hf
  rcases hf with rfl | rfl
  · exact ⟨_, fbb_means A (life_means (by decide) (by decide) rfl) (life_means (by decide) (by decide) rfl)⟩
  · exact ⟨_, wip_means A (butte_means A rfl .nil)⟩

end

end Butte.Src.Check
