import Verif.Props.Lifetimes
import Verif.Props.Analysis
import Verif.Src.Rpc
/-
Property C81: services and the user's `RpcGenerator`.
-/
namespace Butte.Src
open Ir (QIdent Node Ident itemsOf OneNamespace InOrder lastNs nameIn refIn build All₂ Names MethodMeans)
open Rs (Program Setting WellTyped legalName emit Worded Compilable CompilableTo Lawful)
open Gen (nsOf)

/-! ### The services of a schema -/

/-- The service that an element declares. -/
def serviceOf : Ast.Element → Option Ast.Rpc
  | .rpc r => some r
  | _ => none

/-- The service declared at a place, and the namespace it is written in. -/
def serviceAt (E : List Ast.Element) (p : Nat) : Option (Option Ast.QIdent × Ast.Rpc) :=
  (E[p]?.bind serviceOf).map fun r => (lastNs (E.take p), r)

/-- The `rpc_service` declarations of a schema, in order. -/
def declaredServices (E : List Ast.Element) : List (Option Ast.QIdent × Ast.Rpc) :=
  (List.range E.length).filterMap (serviceAt E)

/-- What a service is in the tree: its name, its documentation, its methods in order, with the tables they are about. -/
def ServiceMeans (N : Names) (d : Option Ast.QIdent × Ast.Rpc) (x : Ir.Rpc) : Prop :=
  x.ident = nameIn d.1 d.2.id ∧ x.doc = d.2.doc ∧ All₂ (MethodMeans N d.1) d.2.methods x.methods

/-- The service, if it is one. -/
def rpcOf : Node → Option Ir.Rpc
  | .rpc r => some r
  | _ => none

theorem services_eq (xs : List (List Ident × Node)) : services xs = (xs.map (·.2)).filterMap rpcOf := by
  rw [services, List.filterMap_map]
  congr 1

theorem filterMap_positions (E : List Ast.Element) : declaredServices E = (Ir.declPositions E).filterMap (serviceAt E) := by
  rw [declaredServices, Ir.declPositions, List.filterMap_filter]
  congr 1
  funext p
  cases h : E[p]? with
  | none => simp [serviceAt, h]
  | some el => cases el <;> simp [Ir.declares, serviceAt, serviceOf, h]

theorem MethodMeans.mono {N N' : Names} (h : ∀ q ct, N.dfn q ct → N'.dfn q ct) {ns : Option Ast.QIdent} {m : Ast.RpcMethod}
    {r : Ir.RpcMethod} (hm : MethodMeans N ns m r) : MethodMeans N' ns m r :=
  ⟨h _ _ hm.1, h _ _ hm.2.1, hm.2.2⟩

theorem all₂_mono {α β : Type} {R S : α → β → Prop} (h : ∀ a b, R a b → S a b) {as : List α} {bs : List β} (t : All₂ R as bs) :
    All₂ S as bs := by
  induction t with
  | nil => exact .nil
  | cons r _ ih => exact .cons (h _ _ r) ih

theorem services_of_groups {E : List Ast.Element} {N : Names} {ps : List Nat} {groups : List (List Node)}
    (h : All₂ (fun p g => ∃ el, E[p]? = some el ∧ Ir.Emits N (lastNs (E.take p)) el g) ps groups) :
    All₂ (ServiceMeans N) (ps.filterMap (serviceAt E)) (groups.flatten.filterMap rpcOf) := by
  induction h with
  | nil => exact .nil
  | cons hd _ ih =>
    obtain ⟨el, he, hem⟩ := hd
    rw [List.flatten_cons, List.filterMap_append, List.filterMap_cons, serviceAt, he]
    cases hem with
    | rpc r ms h => exact .cons ⟨rfl, rfl, h⟩ ih
    | _ => exact ih

/-- **C81** The services in the tree are those that are declared: each exactly once, under its name in its namespace, with its
methods in order; request and response are tables of the output. In each module they are in the order of the schema. Full
statement: of every accepted schema; with several namespaces a declaration may be read in a later one (C48). -/
theorem C81_declared_partial {s : Ast.Schema} {out : List Node} (h : OneNamespace s.elements ∨ InOrder s.elements)
    (hb : build s = some (.ok out)) :
    ∃ rs, All₂ (ServiceMeans (Names.ofItems ((itemsOf out).map (·.2)))) (declaredServices s.elements) rs ∧
      (services (itemsOf out)).Perm rs ∧
      ∀ path, services ((itemsOf out).filter fun x => x.1 == path) = rs.filter fun r => r.ident.dropLast == path := by
  obtain ⟨groups, g1, g2, -⟩ := (Ir.C46_resolved_partial h hb).1
  have hp := Ir.holds_perm g1
  refine ⟨groups.flatten.filterMap rpcOf, ?_, ?_, ?_⟩
  · rw [filterMap_positions]
    refine all₂_mono ?_ (services_of_groups g2)
    intro d x hx
    refine ⟨hx.1, hx.2.1, all₂_mono (fun m r hm => MethodMeans.mono ?_ hm) hx.2.2⟩
    rintro q ct ⟨n, hn, hd⟩
    exact ⟨n, hp.mem_iff.mpr hn, hd⟩
  · rw [services_eq]
    exact hp.filterMap _
  · intro path
    rw [services_eq, itemsOf, g1.1 path, List.filterMap_filter, List.filter_filterMap]
    congr 1
    funext n
    cases n <;> simp [rpcOf, Ir.Node.ident, Option.filter]

example : ∃ out rs, build Ir.exSchema2 = some (.ok out) ∧ (services (itemsOf out)).Perm rs ∧ rs.length = 1 := by
  obtain ⟨rs, h1, h2, -⟩ := C81_declared_partial (out := _) (.inr Ir.exSchema2_order) rfl
  exact ⟨_, rs, rfl, h2, by cases h1 with | cons _ t => cases t; rfl⟩

/-! ### The calls -/

section
variable [FloatText] {σ : Type}

/-- **C81** Whatever the generator does: it is called once for every service of the tree, in order, and for nothing else. -/
theorem C81_calls (g : RpcGen σ) (gm : Mode) (out : List Node) (s : σ) (ts : Toks) :
    Quote.nodesWith g.logged gm out (some (s, [])) ts =
      (Quote.nodesWith g gm out (some s) ts).map fun x => (x.1.map (·, services (itemsOf out)), x.2) := by
  have := nodesWith_logged (g := g) gm [] out s [] ts
  simpa [itemsOf] using this

/-- **C81** Without a generator, services leave no trace. -/
theorem C81_none (g : RpcGen σ) (gm : Mode) (out : List Node) :
    CodeGenerator.buildTokenStream g gm ⟨out, none⟩ = (tokens gm out).map fun ts => (⟨out, none⟩, ts) := by
  rw [CodeGenerator.buildTokenStream, CodeGenerator.buildTokens, nodesWith_none, tokens]
  cases Quote.nodes gm out <;> simp

/-- **C81** With a generator that adds items: the code generator gets to the end, the tokens can be read, and the file is what is
generated without services, with the items for each service put in its module. Full statement: for all names, which is
false (C79). -/
theorem C81_woven_partial {g : RpcGen σ} {gm : Mode} {out : List Node} {P : Program} (h : Legible out) (he : emit gm out = some P)
    {s s' : σ} {as : List (List Item)} (hr : g.Run s (services (itemsOf out)) s' (as.map printItems))
    (hw : ∀ a ∈ as, itemsWf a) :
    ∃ items, CodeGenerator.buildTokenStream g gm ⟨out, some s⟩ = some (⟨out, none⟩, printItems items) ∧
      Read.readFile (printItems items) = some items ∧ woven gm (itemsOf out) as = some (flatItems [] items) := by
  have h' := nodes_agree gm out []
  rw [emit] at he
  rw [he] at h'
  generalize hq : Full.nodes gm out = q at h'
  cases h' with
  | some _ =>
    obtain ⟨is, h1, h2, h3⟩ := nodes_woven gm [] out _ hq h hr hw []
    refine ⟨is, ?_, readFile_print h2, h3⟩
    rw [CodeGenerator.buildTokenStream, CodeGenerator.buildTokens, h1]
    rfl

/-! ### Twice -/

/-- A generator that writes `pub mod service { }`. -/
def exGen : RpcGen Unit := ⟨fun s _ ts => some (s, ts ++ printItems [.mod true c!"service" []])⟩

/-- **C81** that the code for services does not depend on how often it is asked for is false: `build_tokens` takes the generator
out, and a second call writes everything but the services (codegen.rs 1107). -/
theorem C81_again_refuted : ∃ (out : List Node) (c c' : CodeGenerator Unit) (ts : Toks), c = ⟨out, some ()⟩ ∧
    ∀ gm, c.buildTokenStream exGen gm = some (c', ts) ∧ ts ≠ [] ∧ c'.buildTokenStream exGen gm = some (c', []) :=
  ⟨[.rpc ⟨[c!"R"], [], []⟩], _, ⟨_, none⟩, printItems [.mod true c!"service" []], rfl, fun _ => ⟨rfl, by decide, rfl⟩⟩

/-! ### From the text -/

section
variable [Parse.Env]

/-- **C81** from any schema text that the compiler accepts, whose types are all in one namespace and meet the conditions of
C79, with any generator that adds items for the services. -/
theorem C81_accepted_partial (hx : Parse.HexfPrefix) {txt : Str} {sc : Ast.Schema} {out : List Node}
    (hp : Parse.schemaDecl txt = some ([], sc)) (hc : Parse.compileText txt = some (.tree out)) (h : OneNamespace sc.elements)
    {gm : Mode} (hg : Compilable gm sc.elements) (L : Lawful sc.elements)
    (hm : ∀ m ∈ nsOf sc.elements, legalName (Heck.snake m) = true) {g : RpcGen σ} {s s' : σ} {as : List (List Item)}
    (hr : g.Run s (services (itemsOf out)) s' (as.map printItems)) (hw : ∀ a ∈ as, itemsWf a) :
    ∃ items, CodeGenerator.buildTokenStream g gm ⟨out, some s⟩ = some (⟨out, none⟩, printItems items) ∧
      Read.readFile (printItems items) = some items ∧ woven gm (itemsOf out) as = some (flatItems [] items) := by
  have hb := (Gen.compileText_build hp).mp hc
  obtain ⟨P, hP, W, -⟩ := Rs.build_compiles h hb (.of_text (Parse.C61_sound hx hp)) hg L hm
  have S := Rs.setting_one h hb hP W.1 hg.free hg.freeModules
  exact C81_woven_partial (legible S W (fun p t hx => Gen.C72_all_partial (.inl h) hb gm hg.tables hx) (leavesL_isItem [] out)) hP hr hw

/-- **C81** with several namespaces, declared before use. -/
theorem C81_several_partial (hx : Parse.HexfPrefix) {txt : Str} {sc : Ast.Schema} {out : List Node}
    (hp : Parse.schemaDecl txt = some ([], sc)) (hc : Parse.compileText txt = some (.tree out))
    (h : OneNamespace sc.elements ∨ InOrder sc.elements) {gm : Mode} (hg : CompilableTo gm sc.elements out)
    (L : Lawful sc.elements) (hm : ∀ x ∈ itemsOf out, ∀ m ∈ x.1, legalName (Heck.snake m) = true) {g : RpcGen σ} {s s' : σ}
    {as : List (List Item)} (hr : g.Run s (services (itemsOf out)) s' (as.map printItems)) (hw : ∀ a ∈ as, itemsWf a) :
    ∃ items, CodeGenerator.buildTokenStream g gm ⟨out, some s⟩ = some (⟨out, none⟩, printItems items) ∧
      Read.readFile (printItems items) = some items ∧ woven gm (itemsOf out) as = some (flatItems [] items) := by
  have hb := (Gen.compileText_build hp).mp hc
  obtain ⟨P, hP, W, -⟩ := Rs.build_compiles_several h hb (.of_text (Parse.C61_sound hx hp)) hg L hm
  have S := Rs.setting_of h hb hP W.1
    (Gen.C70_partial h hb (Rs.emitNodes_names gm [] out P hP) fun x hx q hq => ⟨(hg.paths x hx q hq).1, (hg.paths x hx q hq).2.2⟩) hg.free
  exact C81_woven_partial (legible S W (fun p t hx => Gen.C72_all_partial h hb gm hg.tables hx) (leavesL_isItem [] out)) hP hr hw

end

/-! ### A tree with a service -/

/-- `namespace A; table T { } rpc_service R { }` -/
def exTree : List Node := [.namespace [c!"A"] [.table ⟨[c!"A", c!"T"], [], false, []⟩, .rpc ⟨[c!"A", c!"R"], [], []⟩]]

example (gm : Mode) : ∃ items, CodeGenerator.buildTokenStream exGen gm ⟨exTree, some ()⟩ = some (⟨exTree, none⟩, printItems items) ∧
    Read.readFile (printItems items) = some items ∧
    woven gm (itemsOf exTree) [[.mod true c!"service" []]] = some (flatItems [] items) := by
  have key : ∀ {out : List Node} {P}, Legible out → emit gm out = some P → services (itemsOf out) = [⟨[c!"A", c!"R"], [], []⟩] →
      ∃ items, CodeGenerator.buildTokenStream exGen gm ⟨out, some ()⟩ = some (⟨out, none⟩, printItems items) ∧
        Read.readFile (printItems items) = some items ∧
        woven gm (itemsOf out) [[.mod true c!"service" []]] = some (flatItems [] items) := by
    intro out P h1 h2 h3
    refine C81_woven_partial (s' := ()) h1 h2 ?_ ?_
    · rw [h3]
      exact .cons (fun _ => rfl) (.nil _)
    · intro a ha
      rw [List.mem_singleton.mp ha]
      exact ⟨⟨by decide, trivial⟩, trivial⟩
  exact key (legible_of_check (by decide +kernel)) (by cases gm <;> rfl) rfl

end

end Butte.Src
