import Verif.Hash.Debug
import Verif.Parse.Compile
import Verif.Src.Rpc
/-
Which messages depend on the order of a hash map, and the compiler as a program whose hash maps have any order.
-/
namespace Butte.Hash
open Ast

/-! ### Maps -/

theorem HMap.extend_perm {κ ν : Type} [DecidableEq κ] {m m' m'' : HMap κ ν} {l : List (κ × ν)} (h : HMap.Extend m l m')
    (hl : l ≠ []) (hp : m''.Perm m') : HMap.Extend m l m'' := by
  induction h with
  | nil => exact absurd rfl hl
  | @cons m m₁ m₂ k v rest h1 h2 ih =>
    cases rest with
    | nil =>
      cases h2
      exact .cons (hp.trans h1) (.nil _)
    | cons p rest => exact .cons h1 (ih (by simp) hp)

theorem HMap.extend_mem {κ ν : Type} [DecidableEq κ] {m m' : HMap κ ν} {l : List (κ × ν)} (h : HMap.Extend m l m')
    {p : κ × ν} (hp : p ∈ m') : p ∈ l ∨ p ∈ m := by
  induction h with
  | nil => exact .inr hp
  | @cons m m₁ m₂ k v rest h1 _ ih =>
    rcases ih hp with h | h
    · exact .inl (List.mem_cons_of_mem _ h)
    · have := (List.Perm.mem_iff h1).mp h
      rcases List.mem_cons.mp this with rfl | h
      · exact .inl (by simp)
      · exact .inr (List.mem_filter.mp h).1

theorem HMap.extend_key {κ ν : Type} [DecidableEq κ] {m' : HMap κ ν} {l : List (κ × ν)} (h : HMap.Extend [] l m')
    {k : κ} (hk : k ∈ l.map (·.1)) : k ∈ m'.map (·.1) := by
  have hp := HMap.extend_proper h List.nodup_nil
  have hg := HMap.extend_get h List.nodup_nil k
  obtain ⟨p, hp', rfl⟩ := List.mem_map.mp hk
  cases hf : l.reverse.find? fun q => decide (q.1 = p.1) with
  | none =>
    have := List.find?_eq_none.mp hf p (List.mem_reverse.mpr hp')
    simp at this
  | some q =>
    rw [hf] at hg
    exact List.mem_map.mpr ⟨_, (HMap.get_eq_some hp).mp hg, rfl⟩

theorem HMap.extend_same {κ ν : Type} [DecidableEq κ] {m m' : HMap κ ν} {l : List (κ × ν)} (h : HMap.Extend [] l m)
    (h' : HMap.Extend [] l m') : m.Perm m' := by
  have p := HMap.extend_proper h List.nodup_nil
  have p' := HMap.extend_proper h' List.nodup_nil
  refine (List.perm_ext_iff_of_nodup (List.Nodup.of_map _ p) (List.Nodup.of_map _ p')).mpr ?_
  rintro ⟨k, v⟩
  rw [← HMap.get_eq_some p, ← HMap.get_eq_some p', HMap.extend_get h List.nodup_nil, HMap.extend_get h' List.nodup_nil]

section
variable [DebugText]

/-- The text of one entry of a map. -/
def entry (p : Ident × Texts) : Texts := cat (dbgIdent p.1) (cat (lit c!": ") p.2)

/-- The text of a map whose entries come in this order. -/
def inOrder (m : HMap Ident Texts) : Texts := cat (lit c!"{") (cat (sepBy c!", " (m.map entry)) (lit c!"}"))

theorem dbgHash_def (pairs : List (Ident × Texts)) (t : Str) :
    dbgHash pairs t ↔ ∃ m, HMap.Extend [] pairs m ∧ inOrder m t := Iff.rfl

theorem inh_entry {p : Ident × Texts} (h : Inh p.2) : Inh (entry p) :=
  inh_cat (det_ident _).1 (inh_cat (inh_lit _) h)

theorem inh_inOrder {m : HMap Ident Texts} (h : ∀ p ∈ m, Inh p.2) : Inh (inOrder m) := by
  refine inh_cat (inh_lit _) (inh_cat (inh_sepBy ?_) (inh_lit _))
  intro t ht
  obtain ⟨p, hp, rfl⟩ := List.mem_map.mp ht
  exact inh_entry (h p hp)

theorem same_inOrder {m : HMap Ident Texts} (h : ∀ p ∈ m, Det p.2) : Same (inOrder m) := by
  have hi : ∀ t ∈ m.map entry, Inh t := by
    intro t ht
    obtain ⟨p, hp, rfl⟩ := List.mem_map.mp ht
    exact inh_entry (h p hp).1
  refine (same_cat (inh_lit _) (inh_cat (inh_sepBy hi) (inh_lit _))).mpr ⟨same_lit _, ?_⟩
  refine (same_cat (inh_sepBy hi) (inh_lit _)).mpr ⟨(same_sepBy hi).mpr ?_, same_lit _⟩
  intro t ht
  obtain ⟨p, hp, rfl⟩ := List.mem_map.mp ht
  exact (same_cat (det_ident _).1 (inh_cat (inh_lit _) (h p hp).1)).mpr
    ⟨(det_ident _).2, (same_cat (inh_lit _) (h p hp).1).mpr ⟨same_lit _, (h p hp).2⟩⟩

theorem inh_hash {pairs : List (Ident × Texts)} (h : ∀ p ∈ pairs, Inh p.2) : Inh (dbgHash pairs) := by
  obtain ⟨m, hm⟩ := HMap.extend_exists [] pairs
  obtain ⟨t, ht⟩ := inh_inOrder (m := m) fun p hp => by
    rcases HMap.extend_mem hm hp with h' | h'
    · exact h p h'
    · cases h'
  exact ⟨t, m, hm, ht⟩

/-- What a map with at least two entries looks like: it begins with the name of its first entry. -/
theorem inOrder_head {k : Ident} {v : Texts} {p : Ident × Texts} {r : HMap Ident Texts} {t : Str}
    (h : inOrder ((k, v) :: p :: r) t) : ∃ x, t = c!"{Ident { raw: " ++ (dbgStr k ++ x) := by
  obtain ⟨_, _, rfl, ⟨_, _, ⟨_, _, ⟨_, _, ⟨_, _, rfl, ⟨_, _, hi, rfl, rfl⟩, rfl⟩, _, rfl⟩, _, rfl⟩, _, rfl⟩, rfl⟩ := h
  obtain ⟨_, _, rfl, hi, rfl⟩ := hi
  cases hi
  simp only [List.append_assoc]
  exact ⟨_, rfl⟩

/-- The text of a map is determined if all its names are the same, and only then. -/
theorem same_hash {pairs : List (Ident × Texts)} (h : ∀ p ∈ pairs, Det p.2) :
    Same (dbgHash pairs) ↔ ∀ p ∈ pairs, ∀ q ∈ pairs, p.1 = q.1 := by
  have hdet : ∀ m, HMap.Extend [] pairs m → ∀ p ∈ m, Det p.2 := fun m hm p hp => by
    rcases HMap.extend_mem hm hp with h' | h'
    · exact h p h'
    · cases h'
  constructor
  · intro hs p hp q hq
    by_contra hne
    obtain ⟨m, hm⟩ := HMap.extend_exists [] pairs
    have k1 := HMap.extend_key hm (List.mem_map.mpr ⟨p, hp, rfl⟩)
    have k2 := HMap.extend_key hm (List.mem_map.mpr ⟨q, hq, rfl⟩)
    have hpr := HMap.extend_proper hm List.nodup_nil
    match m, hm, k1, k2, hpr with
    | [], _, k1, _, _ => simp at k1
    | [a], _, k1, k2, _ =>
      simp only [List.map_cons, List.map_nil, List.mem_singleton] at k1 k2
      exact hne (k1.trans k2.symm)
    | a :: b :: r, hm, _, _, hpr =>
      have hm' : HMap.Extend [] pairs (b :: a :: r) :=
        HMap.extend_perm hm (by rintro rfl; simp at hp) (List.Perm.swap _ _ _)
      obtain ⟨t1, ht1⟩ := inh_inOrder fun p hp => (hdet _ hm p hp).1
      obtain ⟨t2, ht2⟩ := inh_inOrder fun p hp => (hdet _ hm' p hp).1
      have e := hs t1 t2 ⟨_, hm, ht1⟩ ⟨_, hm', ht2⟩
      obtain ⟨x, hx⟩ := inOrder_head ht1
      obtain ⟨y, hy⟩ := inOrder_head ht2
      rw [hx, hy] at e
      have e := dbgStr_prefix (List.append_cancel_left e)
      have := (List.nodup_cons.mp hpr).1
      rw [List.map_cons] at this
      exact this (e ▸ by simp)
  · rintro hk x y ⟨m, hm, hx⟩ ⟨m', hm', hy⟩
    have hp := HMap.extend_same hm hm'
    have hpr := HMap.extend_proper hm List.nodup_nil
    have key : ∀ p ∈ m, ∃ q ∈ pairs, q.1 = p.1 := fun p hp => by
      rcases HMap.extend_mem hm hp with h' | h'
      · exact ⟨p, h', rfl⟩
      · cases h'
    have hmm : m = m' := by
      match m, hp, hpr, key with
      | [], hp, _, _ => exact (List.nil_perm.mp hp).symm
      | [a], hp, _, _ => exact List.singleton_perm.mp hp
      | a :: b :: r, _, hpr, key =>
        obtain ⟨q, hq, eq⟩ := key a (by simp)
        obtain ⟨q', hq', eq'⟩ := key b (by simp)
        have := (List.nodup_cons.mp hpr).1
        exact absurd (List.mem_cons.mpr (.inl (eq.symm.trans ((hk q hq q' hq').trans eq')))) this
    subst hmm
    exact same_inOrder (hdet _ hm) x y hx hy

/-! ### Elements -/

/-- All names of a metadata list are the same. -/
def OneName (m : Metadata) : Prop := ∀ p ∈ m, ∀ q ∈ m, p.1 = q.1

omit [DebugText] in
/-- The metadata lists of an element, in it and in its parts. -/
def metadataOf : Element → List Metadata
  | .table t | .struct t => t.metadata.toList ++ t.fields.flatMap fun f => f.metadata.toList
  | .enum e => e.metadata.toList
  | .union u => u.metadata.toList
  | .rpc r => r.methods.flatMap fun m => m.metadata.toList
  | .namespace .. | .root .. | .fileExtension .. | .fileIdentifier .. | .attribute _ | .object .. => []

theorem inh_metadata (m : Metadata) : Inh (dbgMetadata m) := by
  refine inh_struct ?_
  simp only [List.mem_singleton, forall_eq]
  refine inh_hash fun p hp => ?_
  obtain ⟨q, -, rfl⟩ := List.mem_map.mp hp
  exact (det_option fun a => det_single a).1

theorem same_metadata (m : Metadata) : Same (dbgMetadata m) ↔ OneName m := by
  have hd : ∀ p ∈ m.map (fun p => (p.1, dbgOption dbgSingle p.2)), Det p.2 := by
    intro p hp
    obtain ⟨q, -, rfl⟩ := List.mem_map.mp hp
    exact det_option fun a => det_single a
  have : Same (dbgMetadata m) ↔ Same (dbgHash (m.map fun p => (p.1, dbgOption dbgSingle p.2))) := by
    rw [dbgMetadata, same_struct]
    · simp
    · simp only [List.mem_singleton, forall_eq]
      exact inh_hash fun p hp => (hd p hp).1
  rw [this, same_hash hd, OneName]
  simp only [List.forall_mem_map]

theorem inh_optMetadata (m : Option Metadata) : Inh (dbgOption dbgMetadata m) := inh_option fun a _ => inh_metadata a

theorem same_optMetadata (m : Option Metadata) : Same (dbgOption dbgMetadata m) ↔ ∀ x ∈ m.toList, OneName x := by
  rw [same_option fun a _ => inh_metadata a]
  simp only [same_metadata, Option.mem_toList, Option.mem_def]

theorem inh_field (f : Field) : Inh (dbgField f) := by
  refine inh_struct ?_
  simp only [List.mem_cons, List.not_mem_nil, or_false, forall_eq_or_imp, forall_eq]
  exact ⟨(det_ident _).1, (det_ty _).1, (det_option fun a => det_default a).1, inh_optMetadata _, (det_comment _).1⟩

theorem same_field (f : Field) : Same (dbgField f) ↔ ∀ x ∈ f.metadata.toList, OneName x := by
  rw [dbgField, same_struct]
  · simp only [List.mem_cons, List.not_mem_nil, or_false, forall_eq_or_imp, forall_eq, (det_ident _).2, (det_ty _).2,
      (det_option fun a => det_default a).2, (det_comment _).2, same_optMetadata, true_and, and_true]
  · simp only [List.mem_cons, List.not_mem_nil, or_false, forall_eq_or_imp, forall_eq]
    exact ⟨(det_ident _).1, (det_ty _).1, (det_option fun a => det_default a).1, inh_optMetadata _, (det_comment _).1⟩

theorem inh_vecMap {α : Type} {f : α → Texts} (l : List α) (h : ∀ a, Inh (f a)) : Inh (dbgVec (l.map f)) :=
  inh_vec fun t ht => by obtain ⟨a, -, rfl⟩ := List.mem_map.mp ht; exact h a

theorem same_vecMap {α : Type} {f : α → Texts} (l : List α) (h : ∀ a, Inh (f a)) :
    Same (dbgVec (l.map f)) ↔ ∀ a ∈ l, Same (f a) := by
  rw [same_vec fun t ht => by obtain ⟨a, -, rfl⟩ := List.mem_map.mp ht; exact h a]
  simp only [List.forall_mem_map]

theorem inh_product (n : Str) (p : Product) : Inh (dbgProduct n p) := by
  refine inh_struct ?_
  simp only [List.mem_cons, List.not_mem_nil, or_false, forall_eq_or_imp, forall_eq]
  exact ⟨(det_ident _).1, inh_vecMap _ inh_field, inh_optMetadata _, (det_comment _).1⟩

theorem same_product (n : Str) (p : Product) :
    Same (dbgProduct n p) ↔ ∀ x ∈ p.metadata.toList ++ p.fields.flatMap fun f => f.metadata.toList, OneName x := by
  rw [dbgProduct, same_struct]
  · simp only [List.mem_cons, List.not_mem_nil, or_false, forall_eq_or_imp, forall_eq, (det_ident _).2,
      (det_comment _).2, same_optMetadata, true_and, and_true, same_vecMap _ inh_field, same_field, List.mem_append,
      List.mem_flatMap, or_imp, forall_and, forall_exists_index, and_imp]
    constructor
    · rintro ⟨h1, h2⟩
      exact ⟨h2, fun x a ha hx => h1 a ha x hx⟩
    · rintro ⟨h1, h2⟩
      exact ⟨fun a ha x hx => h2 x a ha hx, h1⟩
  · simp only [List.mem_cons, List.not_mem_nil, or_false, forall_eq_or_imp, forall_eq]
    exact ⟨(det_ident _).1, inh_vecMap _ inh_field, inh_optMetadata _, (det_comment _).1⟩

theorem inh_variants (l : List EnumVariant) : Inh (dbgVec (l.map dbgVariant)) := inh_vecMap _ fun a => (det_variant a).1
theorem same_variants (l : List EnumVariant) : Same (dbgVec (l.map dbgVariant)) :=
  (same_vecMap _ fun a => (det_variant a).1).mpr fun a _ => (det_variant a).2

theorem inh_union (u : Ast.Union) : Inh (dbgUnion u) := by
  refine inh_struct ?_
  simp only [List.mem_cons, List.not_mem_nil, or_false, forall_eq_or_imp, forall_eq]
  exact ⟨(det_ident _).1, inh_variants _, inh_optMetadata _, (det_comment _).1⟩

theorem same_union (u : Ast.Union) : Same (dbgUnion u) ↔ ∀ x ∈ u.metadata.toList, OneName x := by
  rw [dbgUnion, same_struct]
  · simp only [List.mem_cons, List.not_mem_nil, or_false, forall_eq_or_imp, forall_eq, (det_ident _).2, same_variants,
      (det_comment _).2, same_optMetadata, true_and, and_true]
  · simp only [List.mem_cons, List.not_mem_nil, or_false, forall_eq_or_imp, forall_eq]
    exact ⟨(det_ident _).1, inh_variants _, inh_optMetadata _, (det_comment _).1⟩

theorem inh_enum (e : Ast.Enum) : Inh (dbgEnum e) := by
  refine inh_struct ?_
  simp only [List.mem_cons, List.not_mem_nil, or_false, forall_eq_or_imp, forall_eq]
  exact ⟨(det_ident _).1, inh_variants _, (det_ty _).1, inh_optMetadata _, (det_comment _).1⟩

theorem same_enum (e : Ast.Enum) : Same (dbgEnum e) ↔ ∀ x ∈ e.metadata.toList, OneName x := by
  rw [dbgEnum, same_struct]
  · simp only [List.mem_cons, List.not_mem_nil, or_false, forall_eq_or_imp, forall_eq, (det_ident _).2, same_variants,
      (det_ty _).2, (det_comment _).2, same_optMetadata, true_and, and_true]
  · simp only [List.mem_cons, List.not_mem_nil, or_false, forall_eq_or_imp, forall_eq]
    exact ⟨(det_ident _).1, inh_variants _, (det_ty _).1, inh_optMetadata _, (det_comment _).1⟩

theorem inh_method (m : Ast.RpcMethod) : Inh (dbgMethod m) := by
  refine inh_struct ?_
  simp only [List.mem_cons, List.not_mem_nil, or_false, forall_eq_or_imp, forall_eq]
  exact ⟨(det_ident _).1, (det_qident _).1, (det_qident _).1, inh_optMetadata _, (det_comment _).1⟩

theorem same_method (m : Ast.RpcMethod) : Same (dbgMethod m) ↔ ∀ x ∈ m.metadata.toList, OneName x := by
  rw [dbgMethod, same_struct]
  · simp only [List.mem_cons, List.not_mem_nil, or_false, forall_eq_or_imp, forall_eq, (det_ident _).2, (det_qident _).2,
      (det_comment _).2, same_optMetadata, true_and, and_true]
  · simp only [List.mem_cons, List.not_mem_nil, or_false, forall_eq_or_imp, forall_eq]
    exact ⟨(det_ident _).1, (det_qident _).1, (det_qident _).1, inh_optMetadata _, (det_comment _).1⟩

theorem inh_rpc (r : Ast.Rpc) : Inh (dbgRpc r) := by
  refine inh_struct ?_
  simp only [List.mem_cons, List.not_mem_nil, or_false, forall_eq_or_imp, forall_eq]
  exact ⟨(det_ident _).1, inh_vecMap _ inh_method, (det_comment _).1⟩

theorem same_rpc (r : Ast.Rpc) : Same (dbgRpc r) ↔ ∀ x ∈ r.methods.flatMap fun m => m.metadata.toList, OneName x := by
  rw [dbgRpc, same_struct]
  · simp only [List.mem_cons, List.not_mem_nil, or_false, forall_eq_or_imp, forall_eq, (det_ident _).2,
      (det_comment _).2, true_and, and_true, same_vecMap _ inh_method, same_method,
      List.mem_flatMap, forall_exists_index, and_imp]
    exact ⟨fun h x a ha hx => h a ha x hx, fun h a ha x hx => h x a ha hx⟩
  · simp only [List.mem_cons, List.not_mem_nil, or_false, forall_eq_or_imp, forall_eq]
    exact ⟨(det_ident _).1, inh_vecMap _ inh_method, (det_comment _).1⟩

mutual
theorem inh_value : ∀ v : Value, Inh (dbgValue v)
  | .single s => by rw [dbgValue]; exact inh_tuple (det_single s).1
  | .object vs d => by rw [dbgValue]; exact inh_tuple (inh_objectOf (inh_pairs vs) d)
  | .list vs => by rw [dbgValue]; exact inh_tuple (inh_vec (inh_values vs))
theorem inh_pairs : ∀ vs : List (Ident × Value), ∀ p ∈ dbgPairs vs, Inh p.2
  | [], p, hp => by simp [dbgPairs] at hp
  | (k, v) :: r, p, hp => by
    rw [dbgPairs] at hp
    rcases List.mem_cons.mp hp with rfl | hp
    · exact inh_value v
    · exact inh_pairs r p hp
theorem inh_values : ∀ vs : List Value, ∀ t ∈ dbgValues vs, Inh t
  | [], t, ht => by simp [dbgValues] at ht
  | v :: r, t, ht => by
    rw [dbgValues] at ht
    rcases List.mem_cons.mp ht with rfl | ht
    · exact inh_value v
    · exact inh_values r t ht
theorem inh_objectOf {vs : List (Ident × Texts)} (h : ∀ p ∈ vs, Inh p.2) (d : Comment) : Inh (dbgObject vs d) := by
  refine inh_struct ?_
  simp only [List.mem_cons, List.not_mem_nil, or_false, forall_eq_or_imp, forall_eq]
  exact ⟨inh_hash h, (det_comment _).1⟩
end

/-- Every element has a text. -/
theorem inh_element (el : Element) : Inh (dbgElement el) := by
  cases el with
  | «namespace» q d =>
    refine inh_tuple (inh_struct ?_)
    simp [(det_qident q).1, (det_comment d).1]
  | table t => exact inh_tuple (inh_product _ t)
  | «struct» s => exact inh_tuple (inh_product _ s)
  | «enum» e => exact inh_tuple (inh_enum e)
  | «union» u => exact inh_tuple (inh_union u)
  | root t d =>
    refine inh_tuple (inh_struct ?_)
    simp [(det_ident t).1, (det_comment d).1]
  | fileExtension e d =>
    refine inh_tuple (inh_struct ?_)
    simp [inh_lit, (det_comment d).1]
  | fileIdentifier i d =>
    refine inh_tuple (inh_struct ?_)
    simp only [List.mem_cons, List.not_mem_nil, or_false, forall_eq_or_imp, forall_eq]
    exact ⟨inh_vecMap _ fun _ => inh_lit _, (det_comment _).1⟩
  | «attribute» a =>
    refine inh_tuple (inh_struct ?_)
    simp [(det_ident a).1]
  | rpc r => exact inh_tuple (inh_rpc r)
  | object vs d => exact inh_tuple (inh_objectOf (inh_pairs vs) d)

omit [DebugText] in
/-- An element that can wait for others. -/
def Waits : Element → Prop
  | .table _ | .struct _ | .union _ | .rpc _ | .root .. => True
  | _ => False

theorem same_element {el : Element} (h : Waits el) : Same (dbgElement el) ↔ ∀ m ∈ metadataOf el, OneName m := by
  cases el with
  | table t => rw [dbgElement, same_tuple (inh_product _ t), same_product]; rfl
  | «struct» s => rw [dbgElement, same_tuple (inh_product _ s), same_product]; rfl
  | «union» u => rw [dbgElement, same_tuple (inh_union u), same_union]; rfl
  | rpc r => rw [dbgElement, same_tuple (inh_rpc r), same_rpc]; rfl
  | root t d =>
    have hi : ∀ f ∈ [(c!"typename", dbgIdent t), (c!"doc", dbgComment d)], Inh f.2 := by
      simp [(det_ident t).1, (det_comment d).1]
    rw [dbgElement, same_tuple (inh_struct hi), same_struct hi]
    simp [(det_ident t).2, (det_comment d).2, metadataOf]
  | _ => exact h.elim

/-! ### Messages -/

theorem inh_message (e : Ir.BuildErr) : Inh (message e) := by
  cases e with
  | unknownStreaming s => exact inh_cat (inh_lit _) (det_single s).1
  | unresolved els => exact inh_cat (inh_lit _) (inh_vecMap _ inh_element)
  | _ => exact inh_lit _

theorem same_unresolved {els : List Element} (h : ∀ el ∈ els, Waits el) :
    Same (message (.unresolved els)) ↔ ∀ el ∈ els, ∀ m ∈ metadataOf el, OneName m := by
  rw [message, same_cat (inh_lit _) (inh_vecMap _ inh_element), same_vecMap _ inh_element]
  simp only [same_lit, true_and]
  exact ⟨fun h' el he => (same_element (h el he)).mp (h' el he), fun h' el he => (same_element (h el he)).mpr (h' el he)⟩

theorem same_message {e : Ir.BuildErr} (h : ∀ els, e ≠ .unresolved els) : Same (message e) := by
  cases e with
  | unknownStreaming s => exact (same_cat (inh_lit _) (det_single s).1).mpr ⟨same_lit _, (det_single s).2⟩
  | unresolved els => exact absurd rfl (h els)
  | _ => exact same_lit _

end

/-! ### What waits -/

open Ir in
theorem newElement_waits {c c' : Ctx} {p : Nat} {el : Element} (h : c.newElement p el = .ok (false, c')) : Waits el := by
  cases el with
  | «namespace» q d => simp [Ctx.newElement] at h
  | «enum» e =>
    simp only [Ctx.newElement, Ctx.newEnum] at h
    split at h
    · cases h
    · split at h
      · cases h
      · simp at h
  | table t => trivial
  | «struct» s => trivial
  | «union» u => trivial
  | rpc r => trivial
  | root t d => trivial
  | _ => simp [Ctx.newElement] at h

open Ir in
theorem pass_waits {c c' : Ctx} {input uns : List Indexed} (h : c.pass input = .ok (uns, c')) : ∀ x ∈ uns, Waits x.2 := by
  induction input generalizing c c' uns with
  | nil => cases h; simp
  | cons p rest ih =>
    obtain ⟨p, el⟩ := p
    simp only [Ctx.pass] at h
    obtain ⟨⟨ok, c1⟩, h1, h⟩ := BRes.bind_eq_ok.mp h
    obtain ⟨⟨u, c2⟩, h2, h⟩ := BRes.bind_eq_ok.mp h
    cases ok with
    | true => cases h; exact ih h2
    | false =>
      cases h
      intro x hx
      rcases List.mem_cons.mp hx with rfl | hx
      · exact newElement_waits h1
      · exact ih h2 x hx

open Ir in
theorem tableFields_err {c : Ctx} {fs : List Ast.Field} {e : BuildErr} : c.tableFields fs ≠ .err e := by
  induction fs with
  | nil => nofun
  | cons f fs ih =>
    intro h
    simp only [Ctx.tableFields] at h
    split at h
    · cases h
    · split at h
      · split at h
        · cases h1 : c.tableFields fs with
          | ok r => rw [h1] at h; cases h
          | err e' => exact ih (h1.trans (by rw [h1] at h; exact h))
          | panic => rw [h1] at h; cases h
        · cases h
      · cases h1 : c.tableFields fs with
        | ok r => rw [h1] at h; cases h
        | err e' => exact ih (h1.trans (by rw [h1] at h; exact h))
        | panic => rw [h1] at h; cases h

open Ir in
theorem structFields_err {c : Ctx} {q : Ir.QIdent} {fs : List Ast.Field} {e : BuildErr} (h : c.structFields q fs = .err e) :
    e = .illegalMember q := by
  induction fs with
  | nil => cases h
  | cons f fs ih =>
    simp only [Ctx.structFields] at h
    split at h
    · cases h
    · split at h
      · cases h1 : c.structFields q fs with
        | ok r => rw [h1] at h; cases h
        | err e' => rw [h1] at h; cases h; exact ih h1
        | panic => rw [h1] at h; cases h
      · cases h; rfl

open Ir in
theorem newRootIdent_err {c : Ctx} {q : Ir.QIdent} {e : BuildErr} (h : c.newRootIdent q = .err e) : e = .notTable q := by
  simp only [Ctx.newRootIdent] at h
  split at h <;> cases h
  rfl

open Ir in
theorem streamingOf_err {m : Option Metadata} {e : BuildErr} (h : streamingOf m = .err e) : ∀ els, e ≠ .unresolved els := by
  unfold streamingOf at h
  repeat' split at h
  all_goals cases h
  all_goals nofun

open Ir in
theorem rpcMethods_err {ms : List Ast.RpcMethod} {c : Ctx} {e : BuildErr} (h : c.rpcMethods ms = .err e) :
    ∀ els, e ≠ .unresolved els := by
  induction ms generalizing c with
  | nil => cases h
  | cons m ms ih =>
    simp only [Ctx.rpcMethods] at h
    cases h1 : c.newRootIdent (qualifyRef c.ns m.requestType) with
    | err e1 => rw [h1] at h; cases h; rw [newRootIdent_err h1]; nofun
    | panic => rw [h1] at h; cases h
    | ok r1 =>
      rw [h1] at h
      simp only [BRes.ok_bind] at h
      split at h
      · cases h
      · cases h2 : r1.2.newRootIdent (qualifyRef c.ns m.responseType) with
        | err e1 => rw [h2] at h; cases h; rw [newRootIdent_err h2]; nofun
        | panic => rw [h2] at h; cases h
        | ok r2 =>
          rw [h2] at h
          simp only [BRes.ok_bind] at h
          split at h
          · cases h
          · cases h3 : streamingOf m.metadata with
            | err e1 => rw [h3] at h; cases h; exact streamingOf_err h3
            | panic => rw [h3] at h; cases h
            | ok s =>
              rw [h3] at h
              simp only [BRes.ok_bind] at h
              cases h4 : r2.2.rpcMethods ms with
              | err e1 => rw [h4] at h; cases h; exact ih h4
              | panic => rw [h4] at h; cases h
              | ok r => rw [h4] at h; cases h

open Ir in
/-- A single declaration is never the reason of a message about declarations that are missing. -/
theorem newElement_err {c : Ctx} {p : Nat} {el : Element} {e : BuildErr} (h : c.newElement p el = .err e) :
    ∀ els, e ≠ .unresolved els := by
  cases el with
  | «namespace» q d => cases h
  | table t =>
    simp only [Ctx.newElement, Ctx.newTable] at h
    split at h
    · cases h; nofun
    · split at h
      · cases h
      · cases h
      · rename_i h1; exact absurd h1 tableFields_err
      · cases h
  | «struct» s =>
    simp only [Ctx.newElement, Ctx.newStruct] at h
    split at h
    · cases h; nofun
    · split at h
      · cases h
      · cases h
      · rename_i h1; cases h; rw [structFields_err h1]; nofun
      · cases h
  | «enum» e =>
    simp only [Ctx.newElement, Ctx.newEnum] at h
    split at h
    · cases h; nofun
    · split at h
      · cases h; nofun
      · cases h
  | «union» u =>
    simp only [Ctx.newElement, Ctx.newUnion] at h
    split at h
    · cases h; nofun
    · split at h
      · cases h
      · simp only [Ctx.generateEnum] at h
        split at h
        · cases h; nofun
        · cases h
  | rpc r =>
    simp only [Ctx.newElement, Ctx.newRpc] at h
    cases h1 : c.rpcMethods r.methods with
    | err e1 => rw [h1] at h; cases h; exact rpcMethods_err h1
    | panic => rw [h1] at h; cases h
    | ok x =>
      rw [h1] at h
      obtain ⟨o, c'⟩ := x
      cases o <;> cases h
  | root t d =>
    simp only [Ctx.newElement] at h
    rw [newRootIdent_err h]
    nofun
  | _ => cases h

open Ir in
theorem retry_waits {fuel : Nat} {c : Ctx} {input : List Indexed} {els : List Element}
    (h : Ctx.retry fuel c input = some (.err (.unresolved els))) : ∀ el ∈ els, Waits el := by
  have step : ∀ (c : Ctx) (p : Nat) (el : Element) (els : List Element), c.newElement p el ≠ .err (.unresolved els) := by
    intro c p el els h
    exact newElement_err h els rfl
  have pass : ∀ (input : List Indexed) (c : Ctx) (els : List Element), c.pass input ≠ .err (.unresolved els) := by
    intro input
    induction input with
    | nil => intro c els h; cases h
    | cons p rest ih =>
      obtain ⟨p, el⟩ := p
      intro c els h
      simp only [Ctx.pass] at h
      cases h1 : c.newElement p el with
      | ok r =>
        rw [h1] at h
        simp only [BRes.ok_bind] at h
        cases h2 : r.2.pass rest with
        | ok r' => rw [h2] at h; cases h
        | err e => rw [h2] at h; cases h; exact ih _ _ h2
        | panic => rw [h2] at h; cases h
      | err e => rw [h1] at h; cases h; exact step _ _ _ _ h1
      | panic => rw [h1] at h; cases h
  induction fuel generalizing c input with
  | zero => cases h
  | succ fuel ih =>
    simp only [Ctx.retry] at h
    split at h
    · rename_i uns c' hp
      split at h
      · cases h
      · split at h
        · cases h
          intro el hel
          obtain ⟨x, hx, rfl⟩ := List.mem_map.mp hel
          exact pass_waits hp x hx
        · exact ih h
    · rename_i e hp
      cases h
      exact absurd hp (pass _ _ _)
    · cases h

theorem builds_waits {s : Schema} {els : List Element} (h : Builds s (.err (.unresolved els))) : ∀ el ∈ els, Waits el := by
  cases h with
  | err h => exact retry_waits h

/-! ### Runs -/

/-- What comes out of a run of the compiler. -/
inductive Result where
  /-- the code, to be printed -/
  | code (ts : Src.Toks)
  /-- the text of the error -/
  | message (m : Str)
  | panic

variable [Parse.Env] [DebugText] [Src.FloatText] {σ : Type}

/-- compile.rs 23-36: the possible results for the text of a schema. -/
inductive Runs (g : Src.RpcGen σ) (gm : Mode) (rpc : Option σ) (t : Str) : Result → Prop
  | parseFailed : Parse.schemaDecl t = none → Runs g gm rpc t (.message c!"parse failed")
  | incomplete {rest : Str} {s : Schema} {q : Str} : Parse.schemaDecl t = some (rest, s) → rest ≠ [] →
    Parse.sliceTo 30 rest = some q → Runs g gm rpc t (.message (c!"Parse was incomplete: not parsed: " ++ q ++ c!"..."))
  | sliced {rest : Str} {s : Schema} : Parse.schemaDecl t = some (rest, s) → rest ≠ [] →
    Parse.sliceTo 30 rest = none → Runs g gm rpc t .panic
  | semantic {s : Schema} {e : Ir.BuildErr} {m : Str} : Parse.schemaDecl t = some ([], s) → Builds s (.err e) → message e m →
    Runs g gm rpc t (.message (c!"semantic analysis failed, " ++ m))
  | analysisPanics {s : Schema} : Parse.schemaDecl t = some ([], s) → Builds s .panic → Runs g gm rpc t .panic
  | generatorPanics {s : Schema} {root : List Ir.Node} : Parse.schemaDecl t = some ([], s) → Builds s (.ok root) →
    Src.CodeGenerator.buildTokenStream g gm ⟨root, rpc⟩ = none → Runs g gm rpc t .panic
  | generated {s : Schema} {root : List Ir.Node} {ts : Src.Toks} {st : Src.CodeGenerator σ} : Parse.schemaDecl t = some ([], s) →
    Builds s (.ok root) → Src.CodeGenerator.buildTokenStream g gm ⟨root, rpc⟩ = some (st, ts) → Runs g gm rpc t (.code ts)

end Butte.Hash
