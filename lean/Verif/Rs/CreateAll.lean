import Verif.Rs.Create
/-
`create` of the emitted program, continued: all fields.
-/
namespace Butte.Rs
open Ir (QIdent)
open Gen (formatIdent formatIdent_eq GField Kind Args kindOf)

/-- The variables of `create`. -/
def createVars (t : Ir.Table) (o : Nat) (fs : List (Str × Value)) : Vars :=
  [(c!"builder", builderValue t o), (c!"fbb", .builder), (c!"args", .struct (tMod t) (tName t ++ c!"Args") fs)]

/-- Inside `create`. -/
def createScope (t : Ir.Table) : Scope := ⟨tMod t, [], some (.item (tMod t) (tName t))⟩

section
variable {gm md : Mode} {P : Program} {t : Ir.Table} {gs : List GField} {n : Nat}

theorem eval_arg {sc : Scope} {o : Nat} {fs : List (Str × Value)} {i : Str} {v : Value}
    (h : (fs.find? fun y => y.1 == i).map (·.2) = some v) (s : St) :
    eval md P (n + 2) sc (createVars t o fs) (.field (.var c!"args") i) s = .val v s :=
  eval_field (m := tMod t) (k := tName t ++ c!"Args") (eval_var (by rfl) s) h

/-- The call of a method of the table's builder. -/
theorem eval_builder_method {sc : Scope} {vars : Vars} {e : Expr} {o : Nat} {m : Str} {fn : Fn}
    (he : ∀ s, eval md P n sc vars e s = .val (builderValue t o) s)
    (hm : fnOf P (tMod t) (tName t ++ c!"Builder") m = some ([], fn)) {es : List Expr} {vs : List Value}
    (hes : ∀ s, evalList (eval md P n sc vars) es s = .val vs s) :
    eval md P (n + 1) sc vars (.method e m es) = invoke md P n (builderScope t) fn (builderValue t o :: vs) := by
  funext s
  rw [eval_method, bind_val (he s), bind_val (hes s)]
  simp only [builderValue, hm, need_some]
  rfl

theorem evalList_one {α : Type} {ev : α → M Value} {e : α} {v : Value} (h : ∀ s, ev e s = .val v s) (s : St) :
    evalList ev [e] s = .val [v] s := by
  rw [evalList_cons, bind_val (h s)]
  rfl

/-- One field of `create`. -/
theorem TableAt.eval_addCall (A : TableAt gm P t gs) {i : Nat} {f : Ir.Field} {g : GField} (hf : t.fields[i]? = some f)
    (hg : gs[i]? = some g) (hb : f.ident ∉ unbindable) {a : g.Arg} {v : Value}
    (hv : encArg f.ty g.kind g.required a = some v) {fs : List (Str × Value)}
    (hfs : (fs.find? fun y => y.1 == f.ident).map (·.2) = some v) {o : Nat} {ss : List Stmt} {last : Expr} :
    evalBlock (eval md P (n + 4) (createScope t)) (createVars t o fs) (addCall f :: ss) last = (do
      let _ ← onBuilder fun b => Gen.addField md b g.slot g.kind g.required a
      evalBlock (eval md P (n + 4) (createScope t)) (createVars t o fs) ss last) := by
  obtain ⟨g', e0, -, e2, -, hk⟩ := A.fields i f hf
  rw [hg] at e0
  cases e0
  obtain ⟨fn, hfn, hfo⟩ := A.add f (List.mem_of_getElem? hf)
  obtain ⟨v', hv', hpush⟩ := arg_pushed hk g.required a
  rw [hv] at hv'
  cases hv'
  have hbv : ∀ s, eval md P (n + 3) (createScope t) (createVars t o fs) (.var c!"builder") s = .val (builderValue t o) s :=
    fun s => eval_var (by rfl) s
  have harg := fun k s => eval_arg (md := md) (P := P) (n := k) (t := t) (o := o) (sc := createScope t) hfs s
  unfold addCall
  simp only
  rw [← e2]
  by_cases hc : (g.required || f.ty.isScalar) = true
  · rw [if_pos hc] at hpush ⊢
    obtain ⟨p, x, hp, hx, hadd⟩ := hpush
    rw [evalBlock_expr, eval_builder_method hbv hfo (evalList_one (harg (n + 1))), A.invoke_add hf hg hb hfn hp hx, hadd,
      bind_assoc']
    rfl
  · rw [if_neg hc] at hpush ⊢
    funext s
    rcases hpush with ⟨rfl, hadd⟩ | ⟨w, rfl, p, x, hp, hx, hadd⟩
    · simp only [hadd]
      show (eval md P (n + 4) (createScope t) (createVars t o fs) _ >>= _) s = _
      rw [bind_val (harg (n + 2) s)]
      rfl
    · rw [hadd]
      show (eval md P (n + 4) (createScope t) (createVars t o fs) _ >>= _) s = _
      rw [bind_val (harg (n + 2) s)]
      show (eval md P (n + 4) (createScope t) ((c!"x", w) :: createVars t o fs) _ >>= _) s = _
      have hbx : ∀ s, eval md P (n + 3) (createScope t) ((c!"x", w) :: createVars t o fs) (.var c!"builder") s =
          .val (builderValue t o) s := fun s => eval_var (by rfl) s
      have hxx : ∀ s, eval md P (n + 3) (createScope t) ((c!"x", w) :: createVars t o fs) (.var c!"x") s = .val w s :=
        fun s => eval_var (by rfl) s
      rw [eval_builder_method hbx hfo (evalList_one hxx), A.invoke_add hf hg hb hfn hp hx, bind_assoc']
      rfl

theorem find_of_nodup {α : Type} {l : List (Str × α)} (h : (l.map (·.1)).Nodup) {i : Str} {v : α} (hm : (i, v) ∈ l) :
    l.find? (fun y => y.1 == i) = some (i, v) := by
  induction l with
  | nil => cases hm
  | cons x l ih =>
    simp only [List.map_cons, List.nodup_cons] at h
    rcases List.mem_cons.mp hm with rfl | hm
    · simp
    · have : (x.1 == i) = false := by
        rw [beq_eq_false_iff_ne]
        rintro rfl
        exact h.1 (List.mem_map_of_mem (f := (·.1)) hm)
      rw [List.find?_cons, this]
      exact ih h.2 hm

theorem encFields_get {fs : List Ir.Field} {gs : List GField} {args : Args gs} {vs : List (Str × Value)}
    (h : encFields fs gs args = some vs) : vs.map (·.1) = fs.map (·.ident) := by
  induction fs generalizing gs vs with
  | nil =>
    cases gs with
    | nil => simp only [encFields, Option.some.injEq] at h; subst h; rfl
    | cons g gs => simp [encFields] at h
  | cons f fs ih =>
    cases gs with
    | nil => simp [encFields] at h
    | cons g gs =>
      obtain ⟨a, as⟩ := args
      simp only [encFields, Option.bind_eq_bind, Option.bind_eq_some_iff, Option.pure_def, Option.some.injEq] at h
      obtain ⟨v, -, vs', hvs, rfl⟩ := h
      simp [ih hvs]

/-- All fields of `create`, from field number `k` on. -/
theorem TableAt.eval_adds (A : TableAt gm P t gs) (hb : ∀ f ∈ t.fields, f.ident ∉ unbindable) {o : Nat}
    {all : List (Str × Value)} (hall : (all.map (·.1)).Nodup) {last : Expr} {fs : List Ir.Field} {hs : List GField}
    {pre : List Ir.Field} {pre' : List GField} (h1 : t.fields = pre ++ fs) (h2 : gs = pre' ++ hs)
    (h3 : pre.length = pre'.length) {args : Args hs} {vs : List (Str × Value)}
    (hv : encFields fs hs args = some vs) (hsub : ∀ x ∈ vs, x ∈ all) :
    evalBlock (eval md P (n + 4) (createScope t)) (createVars t o all) (fs.map addCall) last = (do
      let _ ← onBuilder fun b => Gen.addFields md b hs args
      eval md P (n + 4) (createScope t) (createVars t o all) last) := by
  induction fs generalizing hs vs pre pre' with
  | nil =>
    cases hs with
    | cons g gs => simp [encFields] at hv
    | nil =>
      simp only [List.map_nil, evalBlock_nil]
      rfl
  | cons f fs ih =>
    cases hs with
    | nil => simp [encFields] at hv
    | cons g hs =>
      obtain ⟨a, as⟩ := args
      simp only [encFields, Option.bind_eq_bind, Option.bind_eq_some_iff, Option.pure_def, Option.some.injEq] at hv
      obtain ⟨v, hv, vs', hvs, rfl⟩ := hv
      have hf : t.fields[pre.length]? = some f := by rw [h1]; simp
      have hg : gs[pre.length]? = some g := by rw [h2, h3]; simp
      have hfind : (all.find? fun y => y.1 == f.ident).map (·.2) = some v := by
        have hm := hsub (f.ident, v) (by simp)
        rw [find_of_nodup hall hm]
        rfl
      rw [List.map_cons, A.eval_addCall hf hg (hb f (List.mem_of_getElem? hf)) hv hfind,
        ih (pre := pre ++ [f]) (pre' := pre' ++ [g]) (by simp [h1]) (by simp [h2]) (by simp [h3]) hvs
          (fun x hx => hsub x (by simp [hx]))]
      simp only [Gen.addFields, onBuilder_bind, bind_assoc']

/-! ### The end of the table -/

theorem push_lt {m : Mode} {b b' : Builder} {p : PTy} {x : PVal p} {o : Nat} (h : b.push m x = .ok (o, b')) : o < 2 ^ 32 := by
  unfold Builder.push at h
  cases h1 : b.align m p.size p.align with
  | err e => rw [h1] at h; cases h
  | panic => rw [h1] at h; cases h
  | ok b1 =>
    rw [h1, Res.ok_bind] at h
    cases h2 : b1.makeSpace m p.size with
    | err e => rw [h2] at h; cases h
    | panic => rw [h2] at h; cases h
    | ok b2 =>
      rw [h2, Res.ok_bind] at h
      split at h
      · cases h3 : x.pushBytes m (b2.buf.length - b2.head - p.size) with
        | err e => rw [h3] at h; cases h
        | panic => rw [h3] at h; cases h
        | ok bs =>
          rw [h3, Res.ok_bind] at h
          cases h
          exact Nat.mod_lt _ (by decide)
      · cases h

theorem patchVTable_fst {m : Mode} {b b' : Builder} {v obj o : Nat} (h : b.patchVTable m v obj = .ok (o, b')) : o = obj := by
  unfold Builder.patchVTable at h
  obtain ⟨_, _, h⟩ := Res.bind_eq_ok.mp h
  obtain ⟨_, _, h⟩ := Res.bind_eq_ok.mp h
  obtain ⟨_, _, h⟩ := Res.bind_eq_ok.mp h
  obtain ⟨_, _, h⟩ := Res.bind_eq_ok.mp h
  split at h
  · cases h; rfl
  · cases h

theorem endTable_lt {m : Mode} {b b' : Builder} {s o : Nat} (h : b.endTable m s = .ok (o, b')) : o < 2 ^ 32 := by
  unfold Builder.endTable at h
  obtain ⟨_, _, h⟩ := Res.bind_eq_ok.mp h
  obtain ⟨⟨o', b1⟩, h1, h⟩ := Res.bind_eq_ok.mp h
  cases h
  unfold Builder.writeVTable at h1
  obtain ⟨_, _, h1⟩ := Res.bind_eq_ok.mp h1
  obtain ⟨⟨obj, b2⟩, hp, h1⟩ := Res.bind_eq_ok.mp h1
  have := push_lt hp
  obtain ⟨_, _, h1⟩ := Res.bind_eq_ok.mp h1
  obtain ⟨_, _, h1⟩ := Res.bind_eq_ok.mp h1
  obtain ⟨_, _, h1⟩ := Res.bind_eq_ok.mp h1
  obtain ⟨_, _, h1⟩ := Res.bind_eq_ok.mp h1
  obtain ⟨_, _, h1⟩ := Res.bind_eq_ok.mp h1
  obtain ⟨_, _, h1⟩ := Res.bind_eq_ok.mp h1
  obtain ⟨_, _, h1⟩ := Res.bind_eq_ok.mp h1
  obtain ⟨dup, _, h1⟩ := Res.bind_eq_ok.mp h1
  cases dup <;> (have := patchVTable_fst h1; omega)

/-- The variables of `finish`. -/
def finishVars (t : Ir.Table) (start o : Nat) : Vars := [(c!"o", .offset o), (c!"self", builderValue t start)]

theorem TableAt.eval_checks (A : TableAt gm P t gs) {start o : Nat} {last : Expr} {fs : List Ir.Field} {hs : List GField}
    {pre : List Ir.Field} {pre' : List GField} (h1 : t.fields = pre ++ fs) (h2 : gs = pre' ++ hs)
    (h3 : pre.length = pre'.length) (s : St) :
    evalBlock (eval md P (n + 3) (builderScope t)) (finishVars t start o) (requiredChecks (tName t) fs) last s =
      match Gen.checkRequired md s.fbb o hs with
      | .ok _ => eval md P (n + 3) (builderScope t) (finishVars t start o) last s
      | .err _ => .stuck
      | .panic => .panic := by
  induction fs generalizing hs pre pre' with
  | nil =>
    have : hs = [] := by
      have := A.length
      rw [h1, h2] at this
      simp only [List.length_append, List.append_nil] at this
      exact List.length_eq_zero_iff.mp (by omega)
    subst this
    rfl
  | cons f fs ih =>
    cases hs with
    | nil =>
      have := A.length
      rw [h1, h2] at this
      simp only [List.length_append, List.length_cons, List.length_nil] at this
      omega
    | cons g hs =>
      have hf : t.fields[pre.length]? = some f := by rw [h1]; simp
      have hg : gs[pre.length]? = some g := by rw [h2, h3]; simp
      obtain ⟨g', e0, -, e2, -, hk⟩ := A.fields _ f hf
      rw [hg] at e0
      cases e0
      have ih := ih (hs := hs) (pre := pre ++ [f]) (pre' := pre' ++ [g]) (by simp [h1]) (by simp [h2]) (by simp [h3])
      simp only [requiredChecks, Gen.checkRequired, List.filter_cons, e2] at ih ⊢
      cases hr : f.required with
      | false =>
        simp only [Bool.false_eq_true, if_false]
        exact ih
      | true =>
        simp only [if_true, List.map_cons]
        have hfbb : ∀ s, eval md P (n + 2) (builderScope t) (finishVars t start o) (.field (.var c!"self") c!"fbb") s =
            .val .builder s := fun s => eval_field (m := tMod t) (k := tName t ++ c!"Builder")
              (fs := [(c!"fbb", .builder), (c!"start", .offset start)]) (eval_var (by rfl) s) (v := .builder) (by rfl)
        have ho : ∀ s, eval md P (n + 2) (builderScope t) (finishVars t start o) (.var c!"o") s = .val (.offset o) s :=
          fun s => eval_var (by rfl) s
        have hl : ∀ s, eval md P (n + 2) (builderScope t) (finishVars t start o) (.lit (.str (Heck.snake f.ident))) s =
          .val (.str (String.ofList (Heck.snake f.ident))) s := fun s => eval_lit rfl s
        have hslot := A.eval_slot (md := md) (n := n + 1) (sc := builderScope t) (vars := finishVars t start o)
          (.inl rfl) rfl hf hg
        rw [evalBlock_expr, bind_apply, eval_method, bind_val (hfbb s)]
        simp only [evalList_cons, evalList_nil, bind_apply, ho, hslot, hl, pure_apply, runtimeMethod, if_true, withBuilder]
        cases hreq : s.fbb.required md o g.slot with
        | ok u => simp only [Res.ok_bind, pure, ih]
        | err e => rfl
        | panic => rfl

theorem TableAt.invoke_finish (A : TableAt gm P t gs) (start : Nat) :
    invoke md P (n + 3) (builderScope t) (finishFn (tName t) t.fields) [builderValue t start] = withBuilder fun b => do
      let (o, b) ← b.endTable md start
      Gen.checkRequired md b o gs
      return (.offset o, b) := by
  funext s
  rw [invoke_apply (vs := [(c!"self", builderValue t start)]) (by rfl)]
  have hv : ∀ (k : Nat) (x : Str) (v : Value), ([(c!"fbb", Value.builder), (c!"start", .offset start)].find? fun y => y.1 == x).map (·.2) = some v → ∀ s,
      eval md P (k + 2) (builderScope t) [(c!"self", builderValue t start)] (.field (.var c!"self") x) s = .val v s :=
    fun k x v hx s => eval_field (m := tMod t) (k := tName t ++ c!"Builder") (eval_var (by rfl) s) hx
  unfold endCall finishFn
  simp only
  rw [evalBlock_let, bind_apply, eval_method, bind_val (hv n _ .builder (by rfl) s)]
  simp only [evalList_cons, evalList_nil, bind_apply, hv n c!"start" (.offset start) (by rfl), pure_apply, runtimeMethod, if_true,
    withBuilder]
  cases he : s.fbb.endTable md start with
  | err e => rfl
  | panic => rfl
  | ok r =>
    obtain ⟨o, b⟩ := r
    have hlt := endTable_lt he
    simp only [Res.ok_bind, pure]
    have he := A.eval_checks (md := md) (n := n) (start := start) (o := o) (last := .call (.path wipPath) c!"new" [.method (.var c!"o") c!"value" []]) (fs := t.fields) (pre := []) (pre' := []) (hs := gs) rfl rfl rfl { s with fbb := b }
    unfold finishVars at he
    rw [he]
    simp only
    cases Gen.checkRequired md b o gs with
    | err e => rfl
    | panic => rfl
    | ok u =>
      simp only [Res.ok_bind]
      rw [eval_call_butte (t := .path wipPath) (resolve_butte A.hygienic (.inl rfl) _), bind_apply, evalList_cons, bind_apply,
        eval_method, bind_val (eval_var (v := .offset o) (by rfl) _)]
      simp only [evalList_nil, bind_apply, pure_apply, runtimeMethod, if_true, runtimeCall, and_self, u32v]
      congr 2
      exact Nat.mod_eq_of_lt hlt

/-- `create` of the emitted program does what the model says. -/
theorem TableAt.call_create (A : TableAt gm P t gs) {args : Args gs} {v : Value}
    (hv : encArgs t gs args = some v) :
    callFn md P (n + 4) (tMod t) (tName t) c!"create" [.builder, v] = withBuilder fun b => do
      let (o, b) ← Gen.create md b gs args
      return (.offset o, b) := by
  funext s
  simp only [encArgs, Option.map_eq_some_iff] at hv
  obtain ⟨vs, hvs, rfl⟩ := hv
  rw [callFn_eq A.create, invoke_apply (vs := [(c!"fbb", .builder), (c!"args", .struct (tMod t) (tName t ++ c!"Args") vs)]) (by rfl)]
  have hd : defOf P (createScope t) (.path [tName t ++ c!"Builder"]) = some (.item (tMod t) (tName t ++ c!"Builder")) :=
    resolve_own A.hygienic (sc := createScope t) (.inl rfl) A.ownBuilder
  have hd' : defOf P (builderScope t) (.path [tName t ++ c!"Builder"]) = some (.item (tMod t) (tName t ++ c!"Builder")) :=
    resolve_own A.hygienic (sc := builderScope t) (.inl rfl) A.ownBuilder
  have hnew : invoke md P (n + 3) (builderScope t) (newFn (tName t)) [.builder] = withBuilder fun b => do
      let (o, b) ← b.startTable md
      return (builderValue t o, b) := by
    funext s
    rw [invoke_apply (vs := [(c!"fbb", .builder)]) (by rfl)]
    unfold endCall newFn
    simp only
    rw [evalBlock_let, bind_apply, eval_method, bind_val (eval_var (v := .builder) (by rfl) s)]
    simp only [evalList_nil, bind_apply, pure_apply, runtimeMethod, if_true, withBuilder]
    cases s.fbb.startTable md with
    | err e => rfl
    | panic => rfl
    | ok r =>
      obtain ⟨o, b⟩ := r
      simp only [Res.ok_bind, pure]
      rw [evalBlock_nil, eval_struct hd' A.builderItem rfl (by simp)]
      simp only [evalList_cons, evalList_nil, bind_apply, pure_apply]
      rw [eval_var (v := .builder) (by rfl)]
      simp only [bind_apply]
      rw [eval_var (v := .offset o) (by rfl)]
      rfl
  unfold endCall createFn
  simp only
  change (match evalBlock (eval md P (n + 4) (createScope t)) _ _ _ s with
    | Out.ret v s => Out.val v s
    | o => o) = _
  rw [evalBlock_let, bind_apply, eval_call_item hd A.new, bind_apply, evalList_one (fun s => eval_var (v := .builder) (by rfl) s)]
  simp only
  have hnew' := congrFun hnew s
  unfold builderScope at hnew'
  rw [hnew']
  simp only [withBuilder, Gen.create]
  cases s.fbb.startTable md with
  | err e => rfl
  | panic => rfl
  | ok r =>
    obtain ⟨start, b⟩ := r
    simp only [Res.ok_bind, pure]
    change (match evalBlock (eval md P (n + 4) (createScope t)) (createVars t start vs) _ _ _ with
      | Out.ret v s => Out.val v s
      | o => o) = _
    have hnd : (vs.map (·.1)).Nodup := by rw [encFields_get hvs]; exact A.ids
    rw [A.eval_adds (fun f hf => bindable (A.usable f hf)) hnd (pre := []) (pre' := []) rfl rfl rfl hvs (fun _ h => h)]
    simp only [bind_apply, onBuilder]
    cases Gen.addFields md b gs args with
    | err e => rfl
    | panic => rfl
    | ok b2 =>
      simp only [Res.ok_bind]
      rw [eval_builder_method (fun s => eval_var (by rfl) s) A.finish (es := []) (fun s => rfl), A.invoke_finish]
      simp only [withBuilder]
      cases b2.endTable md start with
      | err e => rfl
      | panic => rfl
      | ok r =>
        obtain ⟨o, b3⟩ := r
        simp only [Res.ok_bind]
        cases Gen.checkRequired md b3 o gs <;> rfl

end

end Butte.Rs
