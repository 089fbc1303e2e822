import Verif.Ir.Arrange
import Mathlib.Data.List.Perm.Basic
import Mathlib.Data.List.Nodup
/-
Hash maps whose iteration order nobody knows, and the analysis with them: butte-build/src/ir/transform.rs 577-644.
-/
namespace Butte.Hash

/-- `std::collections::HashMap`: its entries, in the order in which an iteration would visit them now. Every map has
hash keys of its own, drawn at random, so nothing is said about this order. -/
abbrev HMap (κ ν : Type) := List (κ × ν)

namespace HMap
variable {κ ν : Type} [DecidableEq κ]

/-- `HashMap::get`. -/
def get (m : HMap κ ν) (k : κ) : Option ν := (m.find? fun p => p.1 = k).map (·.2)

/-- `HashMap::insert`: the entry of the key is replaced; afterwards the entries may come in any order. -/
def Insert (m : HMap κ ν) (k : κ) (v : ν) (m' : HMap κ ν) : Prop :=
  m'.Perm ((k, v) :: m.filter fun p => p.1 ≠ k)

/-- `HashMap::remove`, which gives `m.get k`: what is left may come in any order. -/
def Remove (m : HMap κ ν) (k : κ) (m' : HMap κ ν) : Prop := m'.Perm (m.filter fun p => p.1 ≠ k)

/-- `HashMap::extend`, and with an empty map `HashMap::from_iter`: the pairs are inserted one by one. -/
inductive Extend : HMap κ ν → List (κ × ν) → HMap κ ν → Prop
  | nil (m : HMap κ ν) : Extend m [] m
  | cons {m m₁ m₂ : HMap κ ν} {k : κ} {v : ν} {rest : List (κ × ν)} :
    m.Insert k v m₁ → Extend m₁ rest m₂ → Extend m ((k, v) :: rest) m₂

/-- `Itertools::into_group_map`: `lookup.entry(key).or_insert_with(Vec::new).push(val)` for each pair. -/
inductive Group : HMap κ (List ν) → List (κ × ν) → HMap κ (List ν) → Prop
  | nil (m : HMap κ (List ν)) : Group m [] m
  | cons {m m₁ m₂ : HMap κ (List ν)} {k : κ} {v : ν} {rest : List (κ × ν)} :
    m.Insert k ((m.get k).getD [] ++ [v]) m₁ → Group m₁ rest m₂ → Group m ((k, v) :: rest) m₂

/-- Each key has one entry. -/
def Proper (m : HMap κ ν) : Prop := (m.map (·.1)).Nodup

omit [DecidableEq κ] in
theorem proper_perm {m m' : HMap κ ν} (h : m'.Perm m) (hm : m.Proper) : m'.Proper :=
  (h.map Prod.fst).nodup_iff.mpr hm

theorem get_eq_some {m : HMap κ ν} (hm : m.Proper) {k : κ} {v : ν} : m.get k = some v ↔ (k, v) ∈ m := by
  induction m with
  | nil => simp [get]
  | cons p m ih =>
    obtain ⟨k', v'⟩ := p
    have hm' := List.nodup_cons.mp hm
    by_cases hk : k' = k
    · subst hk
      have hn : ∀ v, (k', v) ∉ m := fun v h => hm'.1 (List.mem_map.mpr ⟨_, h, rfl⟩)
      simp only [get, List.find?_cons_of_pos, decide_true, Option.map_some, Option.some.injEq, List.mem_cons, Prod.mk.injEq,
        true_and, hn, or_false]
      exact eq_comm
    · have : get ((k', v') :: m) k = get m k := by simp [get, hk]
      rw [this, ih hm'.2]
      simp [Ne.symm hk]

theorem get_perm {m m' : HMap κ ν} (h : m'.Perm m) (hm : m.Proper) (k : κ) : m'.get k = m.get k :=
  Option.ext fun v => by rw [get_eq_some (proper_perm h hm), get_eq_some hm, h.mem_iff]

theorem get_filter {m : HMap κ ν} (k k' : κ) :
    HMap.get (m.filter fun p => p.1 ≠ k) k' = if k' = k then none else m.get k' := by
  unfold get
  rw [List.find?_filter]
  split
  · subst k'
    rw [List.find?_eq_none.mpr]
    · rfl
    · intro p _
      simp
  · rename_i hk
    congr 2
    funext p
    by_cases hp : p.1 = k'
    · simp [hp, hk]
    · simp [hp]

omit [DecidableEq κ] in
theorem proper_filter {m : HMap κ ν} (hm : m.Proper) (f : κ × ν → Bool) : HMap.Proper (m.filter f) :=
  List.Nodup.sublist (List.Sublist.map _ List.filter_sublist) hm

theorem proper_cons {m : HMap κ ν} (hm : m.Proper) (k : κ) (v : ν) :
    HMap.Proper ((k, v) :: m.filter fun p => p.1 ≠ k) := by
  refine List.nodup_cons.mpr ⟨?_, proper_filter hm _⟩
  simp

theorem insert_proper {m m' : HMap κ ν} {k : κ} {v : ν} (h : m.Insert k v m') (hm : m.Proper) : m'.Proper :=
  proper_perm h (proper_cons hm k v)

theorem insert_get {m m' : HMap κ ν} {k : κ} {v : ν} (h : m.Insert k v m') (hm : m.Proper) (k' : κ) :
    m'.get k' = if k' = k then some v else m.get k' := by
  rw [get_perm h (proper_cons hm k v)]
  by_cases hk : k' = k
  · simp [get, hk]
  · have : get ((k, v) :: m.filter fun p => p.1 ≠ k) k' = get (m.filter fun p => p.1 ≠ k) k' := by
      simp [get, Ne.symm hk]
    rw [this, get_filter, if_neg hk, if_neg hk]

theorem remove_proper {m m' : HMap κ ν} {k : κ} (h : m.Remove k m') (hm : m.Proper) : m'.Proper :=
  proper_perm h (proper_filter hm _)

theorem remove_get {m m' : HMap κ ν} {k : κ} (h : m.Remove k m') (hm : m.Proper) (k' : κ) :
    m'.get k' = if k' = k then none else m.get k' := by
  rw [get_perm h (proper_filter hm _), get_filter]

theorem extend_proper {m m' : HMap κ ν} {l : List (κ × ν)} (h : Extend m l m') (hm : m.Proper) : m'.Proper := by
  induction h with
  | nil => exact hm
  | cons h1 _ ih => exact ih (insert_proper h1 hm)

/-- The last of the pairs with a key counts. -/
theorem extend_get {m m' : HMap κ ν} {l : List (κ × ν)} (h : Extend m l m') (hm : m.Proper) (k : κ) :
    m'.get k = ((l.reverse.find? fun p => p.1 = k).map (·.2)).or (m.get k) := by
  induction h with
  | nil => simp
  | @cons m m₁ m₂ k' v rest h1 _ ih =>
    rw [ih (insert_proper h1 hm), insert_get h1 hm, List.reverse_cons, List.find?_append]
    by_cases hk : k = k'
    · subst hk
      cases hf : List.find? (fun p => decide (p.1 = k)) rest.reverse <;> simp
    · cases hf : List.find? (fun p => decide (p.1 = k)) rest.reverse <;> simp [hk, Ne.symm hk]

theorem group_proper {m m' : HMap κ (List ν)} {l : List (κ × ν)} (h : Group m l m') (hm : m.Proper) : m'.Proper := by
  induction h with
  | nil => exact hm
  | cons h1 _ ih => exact ih (insert_proper h1 hm)

/-- Each key has the values that came with it, in order. -/
theorem group_get {m m' : HMap κ (List ν)} {l : List (κ × ν)} (h : Group m l m') (hm : m.Proper) (k : κ) :
    m'.get k = if ∃ p ∈ l, p.1 = k then some ((m.get k).getD [] ++ (l.filter fun p => p.1 = k).map (·.2)) else m.get k := by
  induction h with
  | nil => simp
  | @cons m m₁ m₂ k' v rest h1 _ ih =>
    rw [ih (insert_proper h1 hm), insert_get h1 hm]
    by_cases hk : k = k'
    · subst hk
      by_cases hr : ∃ p ∈ rest, p.1 = k
      · rw [if_pos hr, if_pos (by simp)]
        simp
      · rw [if_neg hr, if_pos rfl, if_pos (by simp)]
        have : rest.filter (fun p => decide (p.1 = k)) = [] := by
          rw [List.filter_eq_nil_iff]
          intro p hp
          simpa using fun e => hr ⟨p, hp, e⟩
        simp [this]
    · have e : (∃ p ∈ (k', v) :: rest, p.1 = k) ↔ ∃ p ∈ rest, p.1 = k := by
        constructor
        · rintro ⟨p, hp, hpk⟩
          rcases List.mem_cons.mp hp with rfl | hp
          · exact absurd hpk.symm hk
          · exact ⟨p, hp, hpk⟩
        · rintro ⟨p, hp, hpk⟩
          exact ⟨p, List.mem_cons_of_mem _ hp, hpk⟩
      simp only [e, if_neg hk, Ne.symm hk, List.filter_cons_of_neg, decide_false, Bool.false_eq_true, not_false_eq_true]

theorem extend_exists (m : HMap κ ν) (l : List (κ × ν)) : ∃ m', Extend m l m' := by
  induction l generalizing m with
  | nil => exact ⟨m, .nil m⟩
  | cons p l ih =>
    obtain ⟨m', h⟩ := ih ((p.1, p.2) :: m.filter fun q => q.1 ≠ p.1)
    exact ⟨m', .cons (List.Perm.refl _) h⟩

theorem group_exists (m : HMap κ (List ν)) (l : List (κ × ν)) : ∃ m', Group m l m' := by
  induction l generalizing m with
  | nil => exact ⟨m, .nil m⟩
  | cons p l ih =>
    obtain ⟨m', h⟩ := ih ((p.1, (m.get p.1).getD [] ++ [p.2]) :: m.filter fun q => q.1 ≠ p.1)
    exact ⟨m', .cons (List.Perm.refl _) h⟩

end HMap

open Ir

/-- transform.rs 603-608: each namespace gets its children out of the map. -/
inductive Fill : List QIdent → HMap (Option QIdent) (List Node) → List (QIdent × List Node) →
    HMap (Option QIdent) (List Node) → Prop
  | nil (e : HMap (Option QIdent) (List Node)) : Fill [] e [] e
  | cons {e e₁ e₂ : HMap (Option QIdent) (List Node)} {q : QIdent} {qs : List QIdent} {r : List (QIdent × List Node)} :
    e.Remove (some q) e₁ → Fill qs e₁ r e₂ → Fill (q :: qs) e ((q, (e.get (some q)).getD []) :: r) e₂

/-- transform.rs 589-643: the items are grouped by namespace in a hash map, which is collected into another one (589-594),
whose keys are collected into an ordered set (596); the namespaces get their children (598-608) and are stacked (610-637), and
the items without namespace go to the end (639-642). -/
def Arranges (items : List Node) (out : List Node) : Prop :=
  ∃ groups elements filled rest,
    HMap.Group [] (items.map fun n => (n.ns, n)) groups ∧ HMap.Extend [] groups elements ∧
    Fill (((elements.map (·.1)).filterMap id).foldl (fun s q => setInsert q s) []) elements filled rest ∧
    out = NsBuf.toNodes (filled.foldl (fun l p => place [] p.1 p.2 l) []) ++ (rest.get none).getD []

/-- transform.rs 533-644 `Builder::build`, with hash maps in any order. The loop that resolves the names (547-570) asks its
maps and sets only for single keys, so that it is a function (`Ir.Ctx.retry`). -/
inductive Builds (s : Ast.Schema) : BRes (List Node) → Prop
  | ok {c : Ctx} {out : List Node} : Ctx.retry (s.elements.length + 1) .init (indexed s.elements) = some (.ok c) →
    Arranges c.items out → Builds s (.ok out)
  | err {e : BuildErr} : Ctx.retry (s.elements.length + 1) .init (indexed s.elements) = some (.err e) → Builds s (.err e)
  | panic : Ctx.retry (s.elements.length + 1) .init (indexed s.elements) = some .panic → Builds s .panic

/-! ### The order does not matter -/

theorem fill_exists (qs : List QIdent) (e : HMap (Option QIdent) (List Node)) : ∃ r e', Fill qs e r e' := by
  induction qs generalizing e with
  | nil => exact ⟨_, _, .nil e⟩
  | cons q qs ih =>
    obtain ⟨r, e', h⟩ := ih (e.filter fun p => p.1 ≠ some q)
    exact ⟨_, _, .cons (List.Perm.refl _) h⟩

theorem fill_spec {qs : List QIdent} {e e' : HMap (Option QIdent) (List Node)} {r : List (QIdent × List Node)}
    (h : Fill qs e r e') (he : e.Proper) (hq : qs.Nodup) :
    r = qs.map (fun q => (q, (e.get (some q)).getD [])) ∧ e'.get none = e.get none := by
  induction h with
  | nil => exact ⟨rfl, rfl⟩
  | @cons e e₁ e₂ q qs r h1 _ ih =>
    obtain ⟨hq1, hq2⟩ := List.nodup_cons.mp hq
    obtain ⟨i1, i2⟩ := ih (HMap.remove_proper h1 he) hq2
    constructor
    · rw [i1, List.map_cons]
      congr 1
      refine List.map_congr_left fun q' hq' => ?_
      rw [HMap.remove_get h1 he, if_neg]
      rintro ⟨⟩
      exact hq1 hq'
    · rw [i2, HMap.remove_get h1 he, if_neg (by nofun)]

theorem sorted_ext {a b : List QIdent} (ha : a.Pairwise (cmpQIdent · · = .lt)) (hb : b.Pairwise (cmpQIdent · · = .lt))
    (h : ∀ x, x ∈ a ↔ x ∈ b) : a = b := by
  have hp : a.Perm b := (List.perm_ext_iff_of_nodup (ha.imp fun h => lt_ne h) (hb.imp fun h => lt_ne h)).mpr h
  refine List.Perm.eq_of_pairwise (le := fun x y => cmpQIdent x y = .lt) ?_ ha hb hp
  intro x y _ _ h1 h2
  have := Std.TransCmp.lt_trans h1 h2
  exact absurd rfl (lt_ne this)

theorem arranges_iff (items out : List Node) : Arranges items out ↔ out = arrange items := by
  have key : ∀ groups elements filled rest,
      HMap.Group [] (items.map fun n => (n.ns, n)) groups → HMap.Extend [] groups elements →
      Fill (((elements.map (·.1)).filterMap id).foldl (fun s q => setInsert q s) []) elements filled rest →
      NsBuf.toNodes (filled.foldl (fun l p => place [] p.1 p.2 l) []) ++ (rest.get none).getD [] = arrange items := by
    intro groups elements filled rest h1 h2 h3
    have p0 : HMap.Proper ([] : HMap (Option QIdent) (List Node)) := List.nodup_nil
    have p1 := HMap.group_proper h1 p0
    have p2 := HMap.extend_proper h2 p0
    have get : ∀ k, (elements.get k).getD [] = items.filter fun n => n.ns == k := by
      intro k
      have e1 := HMap.extend_get h2 p0 k
      have e2 : (groups.reverse.find? fun p => decide (p.1 = k)).map (·.2) = HMap.get groups k :=
        HMap.get_perm (List.reverse_perm groups) p1 k
      rw [e2] at e1
      have e3 := HMap.group_get h1 p0 k
      rw [e1, e3]
      have e4 : ((items.map fun n => (n.ns, n)).filter fun p => decide (p.1 = k)).map (·.2) =
          items.filter fun n => n.ns == k := by
        rw [List.filter_map, List.map_map]
        rw [show ((·.2) ∘ fun n : Node => (n.ns, n)) = id from rfl, List.map_id]
        congr 1
        funext n
        simp [Function.comp, beq_eq_decide]
      rw [e4]
      split
      · simp [HMap.get]
      · rename_i hno
        have : items.filter (fun n => n.ns == k) = [] := by
          rw [List.filter_eq_nil_iff]
          intro n hn
          simpa using fun e => hno ⟨_, List.mem_map.mpr ⟨n, hn, rfl⟩, e⟩
        simp [this, HMap.get]
    have keys : ∀ k, k ∈ elements.map (·.1) ↔ ∃ n ∈ items, n.ns = k := by
      intro k
      have m : k ∈ elements.map (·.1) ↔ ∃ v, elements.get k = some v := by
        simp only [HMap.get_eq_some p2]
        constructor
        · intro h
          obtain ⟨p, hp, rfl⟩ := List.mem_map.mp h
          exact ⟨p.2, hp⟩
        · rintro ⟨v, hv⟩
          exact List.mem_map.mpr ⟨_, hv, rfl⟩
      have e1 := HMap.extend_get h2 p0 k
      have e2 : (groups.reverse.find? fun p => decide (p.1 = k)).map (·.2) = HMap.get groups k :=
        HMap.get_perm (List.reverse_perm groups) p1 k
      rw [e2, HMap.group_get h1 p0 k] at e1
      rw [m, e1]
      by_cases hk : ∃ p ∈ items.map (fun n => (n.ns, n)), p.1 = k
      · rw [if_pos hk]
        obtain ⟨p, hp, rfl⟩ := hk
        obtain ⟨n, hn, rfl⟩ := List.mem_map.mp hp
        exact ⟨fun _ => ⟨n, hn, rfl⟩, fun _ => ⟨_, rfl⟩⟩
      · rw [if_neg hk]
        constructor
        · rintro ⟨v, hv⟩
          simp [HMap.get] at hv
        · rintro ⟨n, hn, rfl⟩
          exact absurd ⟨_, List.mem_map.mpr ⟨n, hn, rfl⟩, rfl⟩ hk
    have hids : ((elements.map (·.1)).filterMap id).foldl (fun s q => setInsert q s) [] = nsIdents items := by
      have f1 := foldl_setInsert ((elements.map (·.1)).filterMap id) [] List.Pairwise.nil
      have f2 := foldl_setInsert (items.filterMap Node.ns) [] List.Pairwise.nil
      refine sorted_ext f1.1 f2.1 fun x => ?_
      rw [f1.2]
      show _ ↔ x ∈ nsIdents items
      rw [mem_nsIdents]
      simp only [List.mem_filterMap, id, exists_eq_right, List.not_mem_nil, or_false]
      exact keys (some x)
    rw [hids] at h3
    obtain ⟨rfl, hn⟩ := fill_spec h3 p2 (nsIdents_nodup items)
    rw [hn, get none, List.foldl_map]
    unfold arrange
    simp only [get]
  constructor
  · rintro ⟨groups, elements, filled, rest, h1, h2, h3, rfl⟩
    exact key _ _ _ _ h1 h2 h3
  · rintro rfl
    obtain ⟨groups, h1⟩ := HMap.group_exists [] (items.map fun n => (n.ns, n))
    obtain ⟨elements, h2⟩ := HMap.extend_exists [] groups
    obtain ⟨filled, rest, h3⟩ := fill_exists
      (((elements.map (·.1)).filterMap id).foldl (fun s q => setInsert q s) []) elements
    exact ⟨_, _, _, _, h1, h2, h3, (key _ _ _ _ h1 h2 h3).symm⟩

theorem builds_iff (s : Ast.Schema) (r : BRes (List Node)) : Builds s r ↔ build s = some r := by
  unfold build
  constructor
  · rintro (⟨h, ha⟩ | h | h)
    · rw [h, (arranges_iff _ _).mp ha]; rfl
    · rw [h]; rfl
    · rw [h]; rfl
  · intro h
    cases hr : Ctx.retry (s.elements.length + 1) .init (indexed s.elements) with
    | none => rw [hr] at h; cases h
    | some x =>
      rw [hr] at h
      cases x with
      | ok c => cases h; exact .ok hr ((arranges_iff _ _).mpr rfl)
      | err e => cases h; exact .err hr
      | panic => cases h; exact .panic hr

/-- The names in a metadata list that is looked up: `HashMap::from_iter` and `get` (types.rs 304-309, transform.rs 109, 410). -/
theorem metadata_get {pairs : Ast.Metadata} {m : HMap Ast.Ident (Option Ast.Single)} (h : HMap.Extend [] pairs m)
    (k : Ast.Ident) : m.get k = Ast.Metadata.get pairs k := by
  rw [HMap.extend_get h List.nodup_nil k]
  simp [HMap.get, Ast.Metadata.get, beq_eq_decide]

end Butte.Hash
