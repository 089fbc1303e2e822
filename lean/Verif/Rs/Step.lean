import Verif.Rs.Types
/-
Evaluation, one construct at a time.
-/
namespace Butte.Rs
open Ir (QIdent)
open Gen (formatIdent formatIdent_eq)

theorem pure_apply {α : Type} (a : α) (s : St) : (pure a : M α) s = .val a s := rfl

theorem bind_apply {α β : Type} (x : M α) (f : α → M β) (s : St) : (x >>= f) s =
    match x s with
    | .val a s => f a s
    | .ret v s => .ret v s
    | .panic => .panic
    | .stuck => .stuck := rfl

theorem bind_val {α β : Type} {x : M α} {a : α} {s s' : St} (h : x s = .val a s') (f : α → M β) : (x >>= f) s = f a s' := by
  rw [bind_apply, h]

theorem need_some {α : Type} (a : α) : need (some a) = pure a := rfl

/-- The call of a function whose code is known. -/
def invoke (md : Mode) (P : Program) (n : Nat) (sc : Scope) (f : Fn) (args : List Value) : M Value := do
  let vars ← need (bindParams f.params args)
  endCall (evalBlock (eval md P n sc) vars f.body f.value)

section
variable {md : Mode} {P : Program} {n : Nat} {sc : Scope} {vars : Vars}

theorem callFn_eq {m : List Str} {k f : Str} {args : List Value} {gs : List Str} {g : Fn} (h : fnOf P m k f = some (gs, g)) :
    callFn md P n m k f args = invoke md P n ⟨m, gs, some (.item m k)⟩ g args := by
  unfold callFn invoke
  rw [h]
  rfl

theorem invoke_apply {f : Fn} {args : List Value} {vs : Vars} (h : bindParams f.params args = some vs) (s : St) :
    invoke md P n sc f args s = endCall (evalBlock (eval md P n sc) vs f.body f.value) s := by
  unfold invoke
  rw [h]
  rfl

theorem eval_var {x : Str} {v : Value} (h : (vars.find? fun y => y.1 == x).map (·.2) = some v) (s : St) :
    eval md P (n + 1) sc vars (.var x) s = .val v s := by
  rw [eval, h]
  rfl

theorem eval_lit {l : Lit} {v : Value} (h : litValue l = some v) (s : St) :
    eval md P (n + 1) sc vars (.lit l) s = .val v s := by
  rw [eval, h]
  rfl

theorem eval_ok (e : Expr) : eval md P (n + 1) sc vars (.ok e) = (do
    let v ← eval md P n sc vars e
    pure (.ok v)) := by rw [eval]

theorem eval_err {e : Expr} {x : Error} {s s' : St} (h : eval md P n sc vars e s = .val (.error x) s') :
    eval md P (n + 1) sc vars (.err e) s = .val (.err x) s' := by
  rw [eval, bind_val h]
  rfl

theorem eval_some (e : Expr) : eval md P (n + 1) sc vars (.some e) = (do
    let v ← eval md P n sc vars e
    pure (.some v)) := by rw [eval]

theorem eval_none : eval md P (n + 1) sc vars .none = pure .none := by rw [eval]

theorem eval_unit : eval md P (n + 1) sc vars .unit = pure .unit := by rw [eval]

theorem eval_assoc {t : Ty} {c : Str} {d : Def} {v : Value} (hd : defOf P sc t = some d) (hv : assocValue P d c = some v)
    (s : St) : eval md P (n + 1) sc vars (.assoc t c) s = .val v s := by
  rw [eval, hd, need_some, bind_val (pure_apply _ _), hv]
  rfl

theorem eval_ctor {t : Ty} {c : Str} {e : Expr} {d : Def} (hd : defOf P sc t = some d) :
    eval md P (n + 1) sc vars (.ctor t c e) = (do
      let v ← eval md P n sc vars e
      need (ctorValue P d c v)) := by
  rw [eval, hd]
  rfl

theorem eval_call_item {t : Ty} {f : Str} {es : List Expr} {m : List Str} {k : Str} (hd : defOf P sc t = some (.item m k))
    {gs : List Str} {g : Fn} (hf : fnOf P m k f = some (gs, g)) : eval md P (n + 1) sc vars (.call t f es) = (do
      let vs ← evalList (eval md P n sc vars) es
      invoke md P n ⟨m, gs, some (.item m k)⟩ g vs) := by
  rw [eval, hd]
  funext s
  rw [need_some, bind_val (pure_apply _ _)]
  simp only [hf]
  rfl

theorem eval_call_butte {t : Ty} {f : Str} {es : List Expr} {b : Str} (hd : defOf P sc t = some (.butte b)) :
    eval md P (n + 1) sc vars (.call t f es) = (do
      let vs ← evalList (eval md P n sc vars) es
      runtimeCall md (.butte b) f vs) := by
  rw [eval, hd]
  rfl

theorem eval_call_prim {t : Ty} {f : Str} {ty : STy} (hd : defOf P sc t = some (.prim ty)) :
    eval md P (n + 1) sc vars (.call t f []) = runtimeCall md (.prim ty) f [] := by
  rw [eval, hd]
  rfl

theorem eval_method (e : Expr) (f : Str) (es : List Expr) : eval md P (n + 1) sc vars (.method e f es) = (do
    let v ← eval md P n sc vars e
    let vs ← evalList (eval md P n sc vars) es
    match v with
    | .struct m k _ => do
      let (gs, g) ← need (fnOf P m k f)
      invoke md P n ⟨m, gs, some (.item m k)⟩ g (v :: vs)
    | _ => runtimeMethod md v f vs) := by rw [eval]; rfl

theorem eval_methodAt (e : Expr) (f : Str) (t : Ty) (es : List Expr) : eval md P (n + 1) sc vars (.methodAt e f t es) = (do
    let v ← eval md P n sc vars e
    let vs ← evalList (eval md P n sc vars) es
    runtimeMethodAt md P sc v f t vs) := by rw [eval]

theorem eval_mapCtor {e : Expr} {t : Ty} {c : Str} {d : Def} (hd : defOf P sc t = some d) :
    eval md P (n + 1) sc vars (.mapCtor e t c) = (do
      let v ← eval md P n sc vars e
      match v with
      | .none => pure .none
      | .some x => do
        let y ← need (ctorValue P d c x)
        pure (.some y)
      | _ => stuck) := by
  rw [eval, hd]
  rfl

theorem eval_field {e : Expr} {f : Str} {m : List Str} {k : Str} {fs : List (Str × Value)} {s s' : St}
    (h : eval md P n sc vars e s = .val (.struct m k fs) s') {v : Value}
    (hv : (fs.find? fun y => y.1 == f).map (·.2) = some v) :
    eval md P (n + 1) sc vars (.field e f) s = .val v s' := by
  rw [eval, bind_val h]
  simp only [hv]
  rfl

theorem eval_try (e : Expr) : eval md P (n + 1) sc vars (.try e) = (do
    match ← eval md P n sc vars e with
    | .ok v => pure v
    | .err e => fun s => .ret (.err e) s
    | _ => stuck) := by rw [eval]; rfl

theorem eval_ret (e : Expr) : eval md P (n + 1) sc vars (.ret e) = (do
    let v ← eval md P n sc vars e
    fun s => .ret v s) := by rw [eval]

theorem eval_match (e : Expr) (arms : List (Pat × Expr)) : eval md P (n + 1) sc vars (.match e arms) = (do
    let v ← eval md P n sc vars e
    let body ← need (chooseArm P sc v arms)
    eval md P n sc vars body) := by rw [eval]

theorem eval_struct {t : Ty} {fs : List (Str × Expr)} {m : List Str} {k : Str} (hd : defOf P sc t = some (.item m k))
    {name : Str} {gs : List Str} {decl : List (Str × Ty)} (hi : itemOf P m k = some (.struct name gs decl))
    (hn : decl.map (·.1) = fs.map (·.1)) (hnd : (fs.map (·.1)).Nodup) : eval md P (n + 1) sc vars (.struct t fs) = (do
      let vs ← evalList (fun x : Str × Expr => eval md P n sc vars x.2) fs
      pure (.struct m k ((fs.map (·.1)).zip vs))) := by
  rw [eval, hd]
  funext s
  rw [need_some, bind_val (pure_apply _ _)]
  simp only [hi]
  rw [if_pos ⟨hn, hn ▸ hnd⟩]

theorem evalList_nil {α : Type} {ev : α → M Value} : evalList ev [] = pure [] := rfl

theorem evalList_cons {α : Type} {ev : α → M Value} {e : α} {es : List α} : evalList ev (e :: es) = (do
    let v ← ev e
    let vs ← evalList ev es
    pure (v :: vs)) := rfl

end

end Butte.Rs
