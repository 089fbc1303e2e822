import Verif.Ir.Transform
/-
The steps of the semantic analysis as a relation, and termination of the retry loop.
-/
namespace Butte.Ir
open Ast (Element)

/-- One successful call of `new_element` on the element at position `p`: from `c` to `c'`; the flag says whether
the element is finished with. -/
inductive Stepped (c : Ctx) (p : Nat) : Element → Bool → Ctx → Prop
  | namespace (n d) : Stepped c p (.namespace n d) true { c with ns := some n }
  | tableDone (t : Ast.Product) (fields : List Field) (hd : c.isDefined (qualify c.ns (mkIdent t.id)) = false)
      (hf : (c.setType (qualify c.ns (mkIdent t.id)) .tableDeclared).tableFields t.fields = .ok (some fields)) :
      Stepped c p (.table t) true (((c.setType (qualify c.ns (mkIdent t.id)) .tableDeclared).setType
        (qualify c.ns (mkIdent t.id)) (.defined .table)).addNodes p
          [.table ⟨qualify c.ns (mkIdent t.id), fields, false, t.doc⟩])
  | tableWait (t : Ast.Product) (hd : c.isDefined (qualify c.ns (mkIdent t.id)) = false)
      (hf : (c.setType (qualify c.ns (mkIdent t.id)) .tableDeclared).tableFields t.fields = .ok none) :
      Stepped c p (.table t) false (c.setType (qualify c.ns (mkIdent t.id)) .tableDeclared)
  | structDone (s : Ast.Product) (fields : List Field) (hd : c.isDefined (qualify c.ns (mkIdent s.id)) = false)
      (hf : c.structFields (qualify c.ns (mkIdent s.id)) s.fields = .ok (some fields)) :
      Stepped c p (.struct s) true ((c.setType (qualify c.ns (mkIdent s.id)) (.defined (.struct fields))).addNodes p
        [.struct ⟨qualify c.ns (mkIdent s.id), fields, s.doc⟩])
  | structWait (s : Ast.Product) (hd : c.isDefined (qualify c.ns (mkIdent s.id)) = false)
      (hf : c.structFields (qualify c.ns (mkIdent s.id)) s.fields = .ok none) : Stepped c p (.struct s) false c
  | enum (e : Ast.Enum) (base : EnumBase) (hd : c.isDefined (qualify c.ns (mkIdent e.id)) = false)
      (hb : EnumBase.ofAst e.baseType = some base) :
      Stepped c p (.enum e) true ((c.setType (qualify c.ns (mkIdent e.id))
        (.defined (.enum (enumVariants e.variants) base))).addNodes p
          [.enum ⟨qualify c.ns (mkIdent e.id), enumVariants e.variants, base, e.doc⟩])
  | unionDone (u : Ast.Union) (vs : List UnionVariant) (hd : c.isDefined (qualify c.ns (mkIdent u.id)) = false)
      (hv : c.unionVariants u.variants = some vs) (hg : c.isDefined (unionEnumIdent c.ns u) = false) :
      Stepped c p (.union u) true
        (((c.setType (unionEnumIdent c.ns u) (.defined (.enum (unionEnumVariants u.variants) .ubyte))).setType
          (qualify c.ns (mkIdent u.id)) (.defined (.union (unionEnumIdent c.ns u) vs))).addNodes p
          [.enum ⟨unionEnumIdent c.ns u, unionEnumVariants u.variants, .ubyte, u.doc⟩,
           .union ⟨qualify c.ns (mkIdent u.id), unionEnumIdent c.ns u, vs, u.doc⟩])
  | unionWait (u : Ast.Union) (hd : c.isDefined (qualify c.ns (mkIdent u.id)) = false)
      (hv : c.unionVariants u.variants = none) : Stepped c p (.union u) false c
  | rootDone (t : Ast.Ident) (d) (ht : c.types (qualify c.ns (mkIdent t)) = some (.defined .table)) :
      Stepped c p (.root t d) true { c with roots := qualify c.ns (mkIdent t) :: c.roots }
  | rootWait (t : Ast.Ident) (d) (ht : ∀ ct, c.types (qualify c.ns (mkIdent t)) ≠ some (.defined ct)) :
      Stepped c p (.root t d) false c
  | rpcDone (r : Ast.Rpc) (ms : List RpcMethod) (c' : Ctx) (hm : c.rpcMethods r.methods = .ok (some ms, c')) :
      Stepped c p (.rpc r) true (c'.addNodes p [.rpc ⟨qualify c.ns (mkIdent r.id), ms, r.doc⟩])
  | rpcWait (r : Ast.Rpc) (c' : Ctx) (hm : c.rpcMethods r.methods = .ok (none, c')) : Stepped c p (.rpc r) false c'

theorem newRootIdent_ok {c c' : Ctx} {q : QIdent} {b : Bool} (h : c.newRootIdent q = .ok (b, c')) :
    b = true ∧ c.types q = some (.defined .table) ∧ c' = { c with roots := q :: c.roots } ∨
    b = false ∧ (∀ ct, c.types q ≠ some (.defined ct)) ∧ c' = c := by
  unfold Ctx.newRootIdent at h
  split at h
  · rename_i e
    cases h
    exact .inl ⟨rfl, e, rfl⟩
  · cases h
  · rename_i e1 e2
    cases h
    refine .inr ⟨rfl, ?_, rfl⟩
    intro ct hct
    exact e2 ct hct

theorem newElement_ok {c c' : Ctx} {p : Nat} {el : Element} {b : Bool} (h : c.newElement p el = .ok (b, c')) :
    Stepped c p el b c' := by
  cases el with
  | «namespace» n d => simp only [Ctx.newElement] at h; cases h; exact .namespace n d
  | table t =>
    simp only [Ctx.newElement, Ctx.newTable] at h
    split at h
    · cases h
    · rename_i hd
      have hd : c.isDefined (qualify c.ns (mkIdent t.id)) = false := by simpa using hd
      split at h
      · rename_i fields hf; cases h; exact .tableDone t fields hd hf
      · rename_i hf; cases h; exact .tableWait t hd hf
      · cases h
      · cases h
  | struct t =>
    simp only [Ctx.newElement, Ctx.newStruct] at h
    split at h
    · cases h
    · rename_i hd
      have hd : c.isDefined (qualify c.ns (mkIdent t.id)) = false := by simpa using hd
      split at h
      · rename_i fields hf; cases h; exact .structDone t fields hd hf
      · rename_i hf; cases h; exact .structWait t hd hf
      · cases h
      · cases h
  | enum t =>
    simp only [Ctx.newElement, Ctx.newEnum] at h
    split at h
    · cases h
    · rename_i hd
      have hd : c.isDefined (qualify c.ns (mkIdent t.id)) = false := by simpa using hd
      split at h
      · cases h
      · rename_i base hb; cases h; exact .enum t base hd hb
  | union u =>
    simp only [Ctx.newElement, Ctx.newUnion] at h
    split at h
    · cases h
    · rename_i hd
      have hd : c.isDefined (qualify c.ns (mkIdent u.id)) = false := by simpa using hd
      split at h
      · rename_i hv; cases h; exact .unionWait u hd hv
      · rename_i vs hv
        obtain ⟨⟨e, c1⟩, h1, h2⟩ := BRes.bind_eq_ok.mp h
        unfold Ctx.generateEnum at h1
        simp only at h1
        split at h1
        · cases h1
        · rename_i hg
          have hg : c.isDefined (unionEnumIdent c.ns u) = false := by simpa using hg
          cases h1
          cases h2
          exact .unionDone u vs hd hv hg
  | root t d =>
    simp only [Ctx.newElement] at h
    rcases newRootIdent_ok h with ⟨rfl, ht, rfl⟩ | ⟨rfl, ht, rfl⟩
    · exact .rootDone t d ht
    · exact .rootWait t d ht
  | rpc r =>
    simp only [Ctx.newElement, Ctx.newRpc] at h
    obtain ⟨⟨ms, c1⟩, h1, h2⟩ := BRes.bind_eq_ok.mp h
    cases ms with
    | none => cases h2; exact .rpcWait r _ h1
    | some ms => cases h2; exact .rpcDone r ms _ h1
  | fileExtension _ _ => cases h
  | fileIdentifier _ _ => cases h
  | «attribute» _ => cases h
  | object _ _ => cases h

/-! ### Frame facts -/

theorem rpcMethods_frame {c c' : Ctx} {ms : List Ast.RpcMethod} {r : Option (List RpcMethod)}
    (h : c.rpcMethods ms = .ok (r, c')) :
    c'.ns = c.ns ∧ c'.types = c.types ∧ c'.nodes = c.nodes ∧ (∀ q ∈ c.roots, q ∈ c'.roots) ∧
      ∀ q ∈ c'.roots, q ∈ c.roots ∨ c.types q = some (.defined .table) ∧
        ∃ m ∈ ms, q = qualifyRef c.ns m.requestType ∨ q = qualifyRef c.ns m.responseType := by
  induction ms generalizing c r with
  | nil =>
    simp only [Ctx.rpcMethods] at h
    cases h
    exact ⟨rfl, rfl, rfl, fun q h => h, fun q h => .inl h⟩
  | cons m ms ih =>
    simp only [Ctx.rpcMethods] at h
    obtain ⟨⟨b1, c1⟩, h1, h⟩ := BRes.bind_eq_ok.mp h
    rcases newRootIdent_ok h1 with ⟨rfl, t1, rfl⟩ | ⟨rfl, t1, rfl⟩
    · simp only [Bool.true_eq_false, if_false] at h
      obtain ⟨⟨b2, c2⟩, h2, h⟩ := BRes.bind_eq_ok.mp h
      rcases newRootIdent_ok h2 with ⟨rfl, t2, rfl⟩ | ⟨rfl, t2, rfl⟩
      · simp only [Bool.true_eq_false, if_false] at h
        obtain ⟨s, hs, h⟩ := BRes.bind_eq_ok.mp h
        obtain ⟨⟨rest, c3⟩, h3, h⟩ := BRes.bind_eq_ok.mp h
        cases h
        obtain ⟨f1, f2, f3, f4, f5⟩ := ih h3
        refine ⟨f1, f2, f3, fun q hq => f4 q (by simp [hq]), fun q hq => ?_⟩
        rcases f5 q hq with h | ⟨h, m', hm, h'⟩
        · simp only [List.mem_cons] at h
          rcases h with rfl | rfl | h
          · exact .inr ⟨t2, m, by simp, .inr rfl⟩
          · exact .inr ⟨t1, m, by simp, .inl rfl⟩
          · exact .inl h
        · exact .inr ⟨h, m', by simp [hm], h'⟩
      · simp only [if_true] at h
        cases h
        refine ⟨rfl, rfl, rfl, fun q hq => by simp [hq], fun q hq => ?_⟩
        simp only [List.mem_cons] at hq
        rcases hq with rfl | h
        · exact .inr ⟨t1, m, by simp, .inl rfl⟩
        · exact .inl h
    · simp only [if_true] at h
      cases h
      exact ⟨rfl, rfl, rfl, fun q h => h, fun q h => .inl h⟩

theorem insertNodes_length_le (p : Nat) (ns : List Node) (l : List (Nat × List Node)) :
    l.length ≤ (insertNodes p ns l).length ∧ (insertNodes p ns l).length ≤ l.length + 1 := by
  induction l with
  | nil => simp [insertNodes]
  | cons x l ih =>
    simp only [insertNodes]
    split
    · simp
    · split <;> simp <;> omega

theorem stepped_length {c c' : Ctx} {p : Nat} {el : Element} {b : Bool} (h : Stepped c p el b c') :
    c.nodes.length ≤ c'.nodes.length ∧ c'.nodes.length ≤ c.nodes.length + (if b then 1 else 0) := by
  cases h with
  | rpcDone r ms c1 hm =>
    have := (rpcMethods_frame hm).2.2.1
    simp only [Ctx.addNodes, this]
    simpa using insertNodes_length_le _ _ _
  | rpcWait r c' hm =>
    have := (rpcMethods_frame hm).2.2.1
    simp [this]
  | _ =>
    first
    | exact ⟨Nat.le_refl _, Nat.le_add_right _ _⟩
    | (simp only [Ctx.addNodes, Ctx.setType]; simpa using insertNodes_length_le _ _ _)

theorem pass_length {c c' : Ctx} {input uns : List Indexed} (h : c.pass input = .ok (uns, c')) :
    c.nodes.length ≤ c'.nodes.length ∧ uns.length ≤ input.length ∧
      c'.nodes.length + uns.length ≤ c.nodes.length + input.length := by
  induction input generalizing c uns with
  | nil => simp only [Ctx.pass] at h; cases h; simp
  | cons x rest ih =>
    obtain ⟨p, el⟩ := x
    simp only [Ctx.pass] at h
    obtain ⟨⟨b, c1⟩, h1, h⟩ := BRes.bind_eq_ok.mp h
    obtain ⟨⟨u, c2⟩, h2, h⟩ := BRes.bind_eq_ok.mp h
    have hs := stepped_length (newElement_ok h1)
    simp only at h2 h
    cases b
    · cases h
      obtain ⟨i1, i2, i3⟩ := ih h2
      simp at *; omega
    · cases h
      obtain ⟨i1, i2, i3⟩ := ih h2
      simp at *; omega

/-- Enough fuel: one pass more than there are pending elements. -/
theorem retry_some (c : Ctx) (input : List Indexed) (fuel : Nat) (h : input.length < fuel) :
    Ctx.retry fuel c input ≠ none := by
  induction fuel generalizing c input with
  | zero => omega
  | succ fuel ih =>
    simp only [Ctx.retry]
    split
    · rename_i uns c' hp
      obtain ⟨h1, h2, h3⟩ := pass_length hp
      split
      · simp
      · split
        · simp
        · exact ih c' uns (by omega)
    · simp
    · simp

/-- More fuel does not change the result. -/
theorem retry_mono (c : Ctx) (input : List Indexed) (fuel k : Nat) (r : BRes Ctx)
    (h : Ctx.retry fuel c input = some r) : Ctx.retry (fuel + k) c input = some r := by
  induction fuel generalizing c input with
  | zero => simp [Ctx.retry] at h
  | succ fuel ih =>
    rw [show fuel + 1 + k = (fuel + k) + 1 by omega]
    simp only [Ctx.retry] at h ⊢
    cases hp : c.pass input with
    | err e => rw [hp] at h; exact h
    | panic => rw [hp] at h; exact h
    | ok x =>
      obtain ⟨uns, c'⟩ := x
      rw [hp] at h
      simp only at h ⊢
      by_cases h1 : uns.isEmpty = true
      · rw [if_pos h1] at h ⊢; exact h
      · rw [if_neg h1] at h ⊢
        by_cases h2 : c'.nodes.length = c.nodes.length
        · rw [if_pos h2] at h ⊢; exact h
        · rw [if_neg h2] at h ⊢; exact ih _ _ h

/-! ### Runs -/

/-- The namespace in force after an element. -/
def nsAfter (ns : Option Ast.QIdent) : Element → Option Ast.QIdent
  | .namespace q _ => some q
  | _ => ns

/-- The namespace in force after a list of elements: the last one declared. -/
def lastNs (els : List Element) : Option Ast.QIdent := els.foldl nsAfter none

/-- A namespace under which the element at position `p` may be looked at: the one it is written in, or the last one
of the file. -/
def NsOk (E : List Element) (p : Nat) (ns : Option Ast.QIdent) : Prop := ns = lastNs (E.take p) ∨ ns = lastNs E

/-- States of the analysis of the elements `E`, with the positions that are still pending. `Ok` says in which
namespaces each element may be looked at. -/
inductive Run (E : List Element) (Ok : Nat → Option Ast.QIdent → Prop) : Ctx → (Nat → Prop) → Prop
  | init : Run E Ok .init (fun p => p < E.length)
  | done {c c' : Ctx} {pend : Nat → Prop} {p : Nat} {el : Element} (r : Run E Ok c pend) (he : E[p]? = some el)
      (hp : pend p) (hn : Ok p c.ns) (hs : Stepped c p el true c') : Run E Ok c' (fun q => pend q ∧ q ≠ p)
  | wait {c c' : Ctx} {pend : Nat → Prop} {p : Nat} {el : Element} (r : Run E Ok c pend) (he : E[p]? = some el)
      (hp : pend p) (hn : Ok p c.ns) (hs : Stepped c p el false c') : Run E Ok c' pend

/-- How an analysis ends early: some pending element is refused. -/
def Refused (E : List Element) (Ok : Nat → Option Ast.QIdent → Prop) (r : BRes (Bool × Ctx)) : Prop :=
  ∃ c pend p el, Run E Ok c pend ∧ E[p]? = some el ∧ pend p ∧ Ok p c.ns ∧ c.newElement p el = r

/-- Elements other than `namespace` leave the namespace alone. -/
theorem stepped_ns {c c' : Ctx} {p : Nat} {el : Element} {b : Bool} (h : Stepped c p el b c') :
    c'.ns = nsAfter c.ns el := by
  cases h with
  | rpcDone r ms c1 hm => exact (rpcMethods_frame hm).1
  | rpcWait r c' hm => exact (rpcMethods_frame hm).1
  | _ => rfl

theorem stepped_false {c c' : Ctx} {p : Nat} {el : Element} (h : Stepped c p el false c') :
    ∀ q d, el ≠ .namespace q d := by
  cases h <;> simp

theorem lastNs_snoc (a : List Element) (e : Element) : lastNs (a ++ [e]) = nsAfter (lastNs a) e := by
  unfold lastNs; simp

/-- What one pass does, for a condition `K` on the state that holds along the way. -/
theorem pass_run {E : List Element} {Ok : Nat → Option Ast.QIdent → Prop} {K : List Indexed → Ctx → Prop}
    (hK : ∀ p el rest c, K ((p, el) :: rest) c → E[p]? = some el ∧ Ok p c.ns)
    (hK' : ∀ p el rest c b c', K ((p, el) :: rest) c → Stepped c p el b c' → K rest c')
    (input : List Indexed) (c : Ctx) (pend : Nat → Prop) (hr : Run E Ok c pend) (hk : K input c)
    (hp : ∀ x ∈ input, pend x.1) (hnd : (input.map (·.1)).Nodup) :
    match c.pass input with
    | .ok (uns, c') => Run E Ok c' (fun q => pend q ∧ (q ∈ input.map (·.1) → q ∈ uns.map (·.1))) ∧ K [] c' ∧
        uns.Sublist input ∧ ∀ x ∈ uns, ∀ q d, x.2 ≠ .namespace q d
    | .err e => Refused E Ok (.err e)
    | .panic => Refused E Ok .panic := by
  induction input generalizing c pend with
  | nil =>
    simp only [Ctx.pass]
    refine ⟨?_, hk, List.Sublist.refl _, by simp⟩
    have : (fun q => pend q ∧ (q ∈ ([] : List Indexed).map (·.1) → q ∈ ([] : List Indexed).map (·.1))) = pend := by
      funext q; simp
    rw [this]; exact hr
  | cons x rest ih =>
    obtain ⟨p, el⟩ := x
    obtain ⟨he, hn⟩ := hK p el rest c hk
    simp only [List.map_cons, List.nodup_cons] at hnd
    obtain ⟨hnd1, hnd2⟩ := hnd
    simp only [Ctx.pass]
    cases h1 : c.newElement p el with
    | err e => exact ⟨c, pend, p, el, hr, he, hp (p, el) (by simp), hn, h1⟩
    | panic => exact ⟨c, pend, p, el, hr, he, hp (p, el) (by simp), hn, h1⟩
    | ok r =>
      obtain ⟨b, c1⟩ := r
      have hs := newElement_ok h1
      have hk1 := hK' p el rest c b c1 hk hs
      simp only [BRes.ok_bind]
      cases b with
      | true =>
        have hr1 : Run E Ok c1 _ := .done hr he (hp (p, el) (by simp)) hn hs
        have := ih c1 _ hr1 hk1 (fun x hx => ⟨hp x (by simp [hx]), fun e =>
          hnd1 (List.mem_map.mpr ⟨x, hx, e⟩)⟩) hnd2
        cases h2 : c1.pass rest with
        | err e => rw [h2] at this; exact this
        | panic => rw [h2] at this; exact this
        | ok r =>
          obtain ⟨uns, c2⟩ := r
          rw [h2] at this
          obtain ⟨t1, t2, t3, t4⟩ := this
          simp only [BRes.ok_bind, BRes.pure_eq, if_true]
          refine ⟨?_, t2, t3.cons _, t4⟩
          have e : (fun q => (pend q ∧ q ≠ p) ∧ (q ∈ rest.map (·.1) → q ∈ uns.map (·.1))) =
              (fun q => pend q ∧ (q ∈ ((p, el) :: rest).map (·.1) → q ∈ uns.map (·.1))) := by
            funext q
            apply propext
            simp only [List.map_cons, List.mem_cons]
            constructor
            · rintro ⟨⟨a, b⟩, c⟩
              exact ⟨a, fun h => h.elim (fun h => absurd h b) c⟩
            · rintro ⟨a, c⟩
              refine ⟨⟨a, ?_⟩, fun h => c (.inr h)⟩
              rintro rfl
              have := c (.inl rfl)
              exact hnd1 ((t3.map (·.1)).subset this)
          rw [e] at t1
          exact t1
      | false =>
        have hr1 : Run E Ok c1 _ := .wait hr he (hp (p, el) (by simp)) hn hs
        have := ih c1 _ hr1 hk1 (fun x hx => hp x (by simp [hx])) hnd2
        cases h2 : c1.pass rest with
        | err e => rw [h2] at this; exact this
        | panic => rw [h2] at this; exact this
        | ok r =>
          obtain ⟨uns, c2⟩ := r
          rw [h2] at this
          obtain ⟨t1, t2, t3, t4⟩ := this
          simp only [BRes.ok_bind, BRes.pure_eq]
          refine ⟨?_, t2, t3.cons_cons _, ?_⟩
          · have e : (fun q => pend q ∧ (q ∈ rest.map (·.1) → q ∈ uns.map (·.1))) =
                (fun q => pend q ∧ (q ∈ ((p, el) :: rest).map (·.1) →
                  q ∈ (if false = true then uns else (p, el) :: uns).map (·.1))) := by
              funext q
              apply propext
              simp only [Bool.false_eq_true, if_false, List.map_cons, List.mem_cons]
              constructor
              · rintro ⟨a, c⟩
                exact ⟨a, fun h => h.elim .inl (fun h => .inr (c h))⟩
              · rintro ⟨a, c⟩
                refine ⟨a, fun h => ?_⟩
                rcases c (.inr h) with rfl | h'
                · exact absurd h hnd1
                · exact h'
            rw [e] at t1
            exact t1
          · intro x hx
            rcases List.mem_cons.mp hx with rfl | hx
            · exact stepped_false hs
            · exact t4 x hx

/-- The pending positions are those of the list. -/
theorem pend_eq {pend : Nat → Prop} {input uns : List Indexed} (h : ∀ q, pend q ↔ q ∈ input.map (·.1))
    (hs : uns.Sublist input) :
    (fun q => pend q ∧ (q ∈ input.map (·.1) → q ∈ uns.map (·.1))) = fun q => q ∈ uns.map (·.1) := by
  funext q
  apply propext
  constructor
  · rintro ⟨a, b⟩; exact b ((h q).mp a)
  · intro a
    have := (hs.map (·.1)).subset a
    exact ⟨(h q).mpr this, fun _ => a⟩

/-- How an analysis gets stuck: a pass over the pending elements, not the first, defines nothing and leaves some of
them unsatisfied. -/
def Stuck (E : List Element) (J : Ctx → Prop) (els : List Element) : Prop :=
  ∃ c input uns c', Run E (NsOk E) c (fun q => q ∈ input.map (·.1)) ∧ J c ∧ c.ns = lastNs E ∧
    (∀ x ∈ input, E[x.1]? = some x.2 ∧ ∀ q d, x.2 ≠ .namespace q d) ∧ (input.map (·.1)).Nodup ∧
    c.pass input = .ok (uns, c') ∧ uns ≠ [] ∧ c'.nodes.length = c.nodes.length ∧ els = uns.map (·.2)

/-- How an analysis ends. -/
def Ends (E : List Element) (J : Ctx → Prop) : BRes Ctx → Prop
  | .ok c => Run E (NsOk E) c (fun _ => False)
  | .err e => Refused E (NsOk E) (.err e) ∨ ∃ els, e = .unresolved els ∧ Stuck E J els
  | .panic => Refused E (NsOk E) .panic

/-- Passes after the first. -/
theorem retry_run {E : List Element} {J : Ctx → Prop} (hJ : ∀ c p el b c', Stepped c p el b c' → J c → J c')
    (fuel : Nat) (c : Ctx) (input : List Indexed) (r : BRes Ctx)
    (h : Ctx.retry fuel c input = some r) (hr : Run E (NsOk E) c (fun q => q ∈ input.map (·.1))) (hj : J c)
    (hns : c.ns = lastNs E) (hin : ∀ x ∈ input, E[x.1]? = some x.2 ∧ ∀ q d, x.2 ≠ .namespace q d)
    (hnd : (input.map (·.1)).Nodup) : Ends E J r := by
  induction fuel generalizing c input with
  | zero => simp [Ctx.retry] at h
  | succ fuel ih =>
    simp only [Ctx.retry] at h
    have hpass := pass_run (E := E)
      (K := fun l c => J c ∧ c.ns = lastNs E ∧ ∀ x ∈ l, E[x.1]? = some x.2 ∧ ∀ q d, x.2 ≠ .namespace q d)
      (by
        rintro p el rest c ⟨_, k1, k2⟩
        exact ⟨(k2 (p, el) (by simp)).1, .inr k1⟩)
      (by
        rintro p el rest c b c' ⟨k0, k1, k2⟩ hs
        refine ⟨hJ _ _ _ _ _ hs k0, ?_, fun x hx => k2 x (by simp [hx])⟩
        have h1 := stepped_ns hs
        have h2 := (k2 (p, el) (by simp)).2
        cases el <;> first | (exact absurd rfl (h2 _ _)) | (rw [h1]; exact k1))
      input c _ hr ⟨hj, hns, hin⟩ (fun x hx => List.mem_map.mpr ⟨x, hx, rfl⟩) hnd
    cases hp : c.pass input with
    | err e => rw [hp] at h hpass; cases h; exact .inl hpass
    | panic => rw [hp] at h hpass; cases h; exact hpass
    | ok x =>
      obtain ⟨uns, c'⟩ := x
      rw [hp] at h hpass
      simp only at h
      obtain ⟨t1, t2, t3, t4⟩ := hpass
      rw [pend_eq (fun q => Iff.rfl) t3] at t1
      split at h
      · rename_i he
        cases h
        have : uns = [] := by simpa using he
        subst this
        show Run E (NsOk E) c' _
        simpa using t1
      · rename_i he
        split at h
        · rename_i hl
          cases h
          exact .inr ⟨_, rfl, c, input, uns, c', hr, hj, hns, hin, hnd, hp, by simpa using he, hl, rfl⟩
        · exact ih c' uns h t1 t2.1 t2.2.1 (fun x hx => ⟨(hin x (t3.subset hx)).1, t4 x hx⟩)
            ((t3.map (·.1)).nodup hnd)

theorem indexed_mem {E : List Element} {x : Indexed} : x ∈ indexed E ↔ E[x.1]? = some x.2 := by
  obtain ⟨p, el⟩ := x
  unfold indexed
  constructor
  · intro h
    obtain ⟨⟨a, b⟩, h1, h2⟩ := List.mem_map.mp h
    cases h2
    exact List.mem_zipIdx_iff_getElem?.mp h1
  · intro h
    exact List.mem_map.mpr ⟨(el, p), List.mem_zipIdx_iff_getElem?.mpr h, rfl⟩

theorem indexed_fst (E : List Element) : (indexed E).map (·.1) = List.range E.length := by
  unfold indexed
  rw [List.map_map]
  simp [Function.comp_def, List.range_eq_range']

/-- The namespace an element is written in. -/
def Written (E : List Element) (p : Nat) (ns : Option Ast.QIdent) : Prop := ns = lastNs (E.take p)

theorem Run.mono {E : List Element} {Ok Ok' : Nat → Option Ast.QIdent → Prop} (h : ∀ p ns, Ok p ns → Ok' p ns)
    {c : Ctx} {pend : Nat → Prop} (hr : Run E Ok c pend) : Run E Ok' c pend := by
  induction hr with
  | init => exact .init
  | done r he hp hn hs ih => exact .done ih he hp (h _ _ hn) hs
  | wait r he hp hn hs ih => exact .wait ih he hp (h _ _ hn) hs

theorem Refused.mono {E : List Element} {Ok Ok' : Nat → Option Ast.QIdent → Prop} (h : ∀ p ns, Ok p ns → Ok' p ns)
    {r : BRes (Bool × Ctx)} (hr : Refused E Ok r) : Refused E Ok' r := by
  obtain ⟨c, pend, p, el, h1, h2, h3, h4, h5⟩ := hr
  exact ⟨c, pend, p, el, h1.mono h, h2, h3, h _ _ h4, h5⟩

theorem written_ok {E : List Element} (p : Nat) (ns : Option Ast.QIdent) (h : Written E p ns) : NsOk E p ns := .inl h

/-- The first pass keeps the namespace of the text. -/
theorem first_pass {E : List Element} {J : List Indexed → Ctx → Prop} (h0 : J (indexed E) .init)
    (hJ : ∀ p el rest c b c', J ((p, el) :: rest) c → E[p]? = some el → c.ns = lastNs (E.take p) →
      Stepped c p el b c' → J rest c') :
    match Ctx.init.pass (indexed E) with
    | .ok (uns, c') => Run E (Written E) c' (fun q => q ∈ uns.map (·.1)) ∧ J [] c' ∧ c'.ns = lastNs E ∧
        uns.Sublist (indexed E) ∧ ∀ x ∈ uns, ∀ q d, x.2 ≠ .namespace q d
    | .err e => Refused E (Written E) (.err e)
    | .panic => Refused E (Written E) .panic := by
  have hpass := pass_run (E := E) (Ok := Written E)
    (K := fun l c => J l c ∧ ∃ n, c.ns = lastNs (E.take n) ∧ l = (indexed E).drop n)
    (by
      rintro p el rest c ⟨_, n, k1, k2⟩
      have hm : (p, el) ∈ indexed E := List.mem_of_mem_drop (by rw [← k2]; simp)
      have hp : p = n := by
        have := congrArg (List.map (·.1)) k2
        rw [List.map_drop, indexed_fst, List.map_cons] at this
        have := congrArg (fun l => l[0]?) this
        simp only [List.getElem?_cons_zero, List.getElem?_drop] at this
        have := List.getElem?_eq_some_iff.mp this.symm
        obtain ⟨_, h⟩ := this
        simpa using h.symm
      subst hp
      exact ⟨indexed_mem.mp hm, k1⟩)
    (by
      rintro p el rest c b c' ⟨k0, n, k1, k2⟩ hs
      have hm : (p, el) ∈ indexed E := List.mem_of_mem_drop (by rw [← k2]; simp)
      have hp : p = n := by
        have := congrArg (List.map (·.1)) k2
        rw [List.map_drop, indexed_fst, List.map_cons] at this
        have := congrArg (fun l => l[0]?) this
        simp only [List.getElem?_cons_zero, List.getElem?_drop] at this
        have := List.getElem?_eq_some_iff.mp this.symm
        obtain ⟨_, h⟩ := this
        simpa using h.symm
      subst hp
      have he := indexed_mem.mp hm
      refine ⟨hJ _ _ _ _ _ _ k0 he k1 hs, p + 1, ?_, ?_⟩
      · rw [stepped_ns hs, List.take_add_one, he, Option.toList_some, lastNs_snoc, k1]
      · have := congrArg List.tail k2
        simpa using this)
    (indexed E) .init (fun p => p < E.length) .init ⟨h0, 0, rfl, rfl⟩
    (fun x hx => by
      have := indexed_mem.mp hx
      exact (List.getElem?_eq_some_iff.mp this).1)
    (by rw [indexed_fst]; exact List.nodup_range)
  cases hp : Ctx.init.pass (indexed E) with
  | err e => rw [hp] at hpass; exact hpass
  | panic => rw [hp] at hpass; exact hpass
  | ok x =>
    obtain ⟨uns, c'⟩ := x
    rw [hp] at hpass
    obtain ⟨t1, ⟨t2, n, t2', t2''⟩, t3, t4⟩ := hpass
    rw [pend_eq (input := indexed E) (fun q => by rw [indexed_fst]; simp) t3] at t1
    refine ⟨t1, t2, ?_, t3, t4⟩
    rw [t2', List.take_of_length_le]
    have := congrArg List.length t2''
    simp [indexed] at this
    omega

/-- The whole retry loop, with a condition that holds after the first pass. -/
theorem build_run {E : List Element} {J : Ctx → Prop} (K : List Indexed → Ctx → Prop) (h0 : K (indexed E) .init)
    (hK : ∀ p el rest c b c', K ((p, el) :: rest) c → E[p]? = some el → c.ns = lastNs (E.take p) →
      Stepped c p el b c' → K rest c') (hKJ : ∀ c, K [] c → J c)
    (hJ : ∀ c p el b c', Stepped c p el b c' → J c → J c')
    (fuel : Nat) (r : BRes Ctx) (h : Ctx.retry fuel .init (indexed E) = some r) :
    Ends E J r ∨ ∃ uns c', Ctx.init.pass (indexed E) = .ok (uns, c') ∧ uns ≠ [] ∧ c'.nodes = [] ∧
      r = .err (.unresolved (uns.map (·.2))) := by
  cases fuel with
  | zero => simp [Ctx.retry] at h
  | succ fuel =>
    simp only [Ctx.retry] at h
    have hf := first_pass (E := E) h0 hK
    cases hp : Ctx.init.pass (indexed E) with
    | err e => rw [hp] at h hf; cases h; exact .inl (.inl (Refused.mono written_ok hf))
    | panic => rw [hp] at h hf; cases h; exact .inl (Refused.mono written_ok hf)
    | ok x =>
      obtain ⟨uns, c'⟩ := x
      rw [hp] at h hf
      simp only at h
      obtain ⟨t1, t2, t3, t4, t5⟩ := hf
      have t1 := t1.mono written_ok
      split at h
      · rename_i he
        cases h
        have : uns = [] := by simpa using he
        subst this
        refine .inl ?_
        show Run E (NsOk E) c' _
        simpa using t1
      · rename_i he
        split at h
        · rename_i hl
          cases h
          exact .inr ⟨uns, c', rfl, by simpa using he, by simpa [Ctx.init] using hl, rfl⟩
        · refine .inl (retry_run hJ fuel c' uns r h t1 (hKJ _ t2) t3 (fun x hx =>
            ⟨indexed_mem.mp (t4.subset hx), t5 x hx⟩) ?_)
          exact (t4.map (·.1)).nodup (by rw [indexed_fst]; exact List.nodup_range)

end Butte.Ir
