import Verif.Props.Tree
import Verif.Gen.Widen
/-
Properties C66 and C67: whole object graphs, written with one version of a schema and read with another.
-/
namespace Butte
open Gen

set_option maxRecDepth 8000

/-! ### C66 -/

/-- **C66** whatever was written with code generated from one version of a schema is read, as a whole, with code
generated from another version whose tables have more or fewer fields at the end: on everything both versions know the
two agree, to any depth; fields that only the reader knows have their default; fields that only the writer knows are
left out. -/
theorem C66_other_version (gm m : Mode) (S S' : Tables) (hS : Compatible gm S S') (b b₂ : Builder) (ty : Ir.Ty) (v : Val)
    (o : Nat) (h : Written gm m S b ty v o) (hty : Known S' ty) (rest : List Op) (rets : List (Option Nat))
    (e : run m b rest = .ok (rets, b₂)) (hr : NoReset rest) (hs : b₂.usedSpace < 2 ^ 31) :
    o ≤ b₂.usedSpace ∧ ∃ F x v', followTy ty = some (.fwdU F) ∧
      F.follow m b₂.unfinishedData (b₂.usedSpace - o) = .ok x ∧ Evolved gm S S' ty v v' ∧
      ∃ N, ∀ n, N ≤ n → readVal gm m S' n ty (.fwdU F) x = .ok v' := by
  obtain ⟨h1, F, h2, x, h3, v', N, h4⟩ := h.reads hS.sees hty rest rets b₂ e hr hs
  exact ⟨h1, F, x, v', h2, h3, (h4 N (Nat.le_refl _)).1, N, fun n hn => (h4 n hn).2⟩

/-- **C66** the same for the root of a finished buffer, found by the generated `get_root`. -/
theorem C66_finished (gm m : Mode) (S S' : Tables) (hS : Compatible gm S S') (b b₂ : Builder) (q : Ir.QIdent)
    (t' : Ir.Table) (hq : S' q = some t') (v : Val) (o : Fin (2 ^ 32)) (h : Written gm m S b (.table q) v o.val)
    (rest : List Op) (ident : Option Bytes) (sp : Bool) (hf : Finishes m b rest o ident sp b₂)
    (hs : b₂.usedSpace < 2 ^ 31) :
    ∃ data root v', b₂.finishedData m = .ok data ∧
      (if sp then Table.getSizePrefixedRoot m data else Table.getRoot m data) = .ok root ∧
      Evolved gm S S' (.table q) v v' ∧
      ∃ N, ∀ n, N ≤ n → readVal gm m S' n (.table q) (.fwdU .table) root = .ok v' := by
  obtain ⟨b', rets, e1, e2⟩ := hf.calls
  have e : run m b (rest ++ [.finish o ident sp]) = .ok (rets ++ [none], b₂) :=
    run_append.mpr ⟨rets, b', [none], e1, run_singleton.mpr ⟨none, e2, rfl⟩, rfl⟩
  have hnr : NoReset (rest ++ [.finish o ident sp]) := by
    intro op hop
    rcases List.mem_append.mp hop with hop | hop
    · exact hf.noReset op hop
    · simp only [List.mem_singleton] at hop; subst hop; rfl
  have hmono := used_mono h.reachable e hnr (by omega)
  obtain ⟨hle, -⟩ := C64_tree_round_trip gm m S b b (.table q) v o.val h [] [] rfl nofun (by omega)
  obtain ⟨-, F, x, v', h1, h2, h3, h4⟩ := C66_other_version gm m S S' hS b b₂ (.table q) v o.val h (.table hq) _ _ e hnr hs
  cases h1
  obtain ⟨f1, f2⟩ := C18_root m b b₂ rest o ident sp h.reachable hf hle hs
  cases h2
  exact ⟨_, _, v', f1, f2, h3, h4⟩

/-! ### C67 -/

/-- **C67** data of a schema is data of every schema that has more variants at the end of its enums and unions: the
calls that wrote it are, byte for byte, the calls of the code generated from the later schema. -/
theorem C67_more_variants (gm m : Mode) (S S' : Tables) (hS : MoreVariants gm S S') (b : Builder) (ty ty' : Ir.Ty) (v : Val)
    (o : Nat) (h : Written gm m S b ty v o) (hw : Widens ty ty') (hc : (followTy ty').isSome) :
    Written gm m S' b ty' v o :=
  h.widen hS ty' hw hc

/-- **C67** with C66: a reader with more variants and with more or fewer fields at the end of tables reads the whole
graph. -/
theorem C67_finished (gm m : Mode) (S S₁ S' : Tables) (h₁ : MoreVariants gm S S₁) (hS : Compatible gm S₁ S')
    (b b₂ : Builder) (q : Ir.QIdent) (t' : Ir.Table) (hq : S' q = some t') (v : Val) (o : Fin (2 ^ 32))
    (h : Written gm m S b (.table q) v o.val) (rest : List Op) (ident : Option Bytes) (sp : Bool)
    (hf : Finishes m b rest o ident sp b₂) (hs : b₂.usedSpace < 2 ^ 31) :
    ∃ data root v', b₂.finishedData m = .ok data ∧
      (if sp then Table.getSizePrefixedRoot m data else Table.getRoot m data) = .ok root ∧
      Evolved gm S₁ S' (.table q) v v' ∧
      ∃ N, ∀ n, N ≤ n → readVal gm m S' n (.table q) (.fwdU .table) root = .ok v' :=
  C66_finished gm m S₁ S' hS b b₂ q t' hq v o (C67_more_variants gm m S S₁ h₁ b _ _ v o.val h (.refl _) rfl) rest ident sp
    hf hs

/-- **C67** the other way round: an enum field given a variant that the reader does not know is the error
`UnknownEnumVariant`, never a wrong variant. -/
theorem C67_unknown_variant (gm m : Mode) (t t' : Ir.Table) (gs gs' : List GField) (hc : compileTable gm t = some gs)
    (hc' : compileTable gm t' = some gs') (hw : List.Forall₂ WidensField t.fields t'.fields)
    (hn : t'.fields.length ≤ 32765) (b b₁ b₂ : Builder) (args : Args gs') (o : Nat) (rest : List Op)
    (rets : List (Option Nat)) (hi : Idle m b) (h : create m b gs' args = .ok (o, b₁))
    (hfit : m = .release → o - b.usedSpace < 65536) (e : run m b₁ rest = .ok (rets, b₂)) (hr : NoReset rest)
    (hs : b₂.usedSpace < 2 ^ 31) (i : Nat) (hlt : i < gs.length) (hlt' : i < gs'.length) (ty : STy) (vals : List (SVal ty))
    (d : Option (Fin vals.length)) (hk : (gs.get ⟨i, hlt⟩).kind = .enum ty vals d) (n : Nat)
    (hv : (gs'.get ⟨i, hlt'⟩).kind.variant? (gs'.get ⟨i, hlt'⟩).required (args.get gs' ⟨i, hlt'⟩) = some n)
    (hge : vals.length ≤ n) :
    accessor m ⟨b₂.unfinishedData, b₂.usedSpace - o⟩ gs (gs.get ⟨i, hlt⟩) = .err .unknownEnumVariant := by
  have hgw := compileFields_wider hw (compileTable_fields hc) (compileTable_fields hc')
  have hg := compile_good (compileTable_fields hc') hn
  have hT := tableReads hi (create_builds h hg hfit).1 e hr hs
  have key := unknown_get hgw (compile_kinds (compileTable_fields hc')) hT hlt hlt' hk hv hge
  unfold accessor
  generalize gs.get ⟨i, hlt⟩ = g at *
  obtain ⟨name, slot, k, r⟩ := g
  simp only at hk
  subst hk
  have : Kind.fetch m ⟨b₂.unfinishedData, b₂.usedSpace - o⟩ slot (tagOf m ⟨b₂.unfinishedData, b₂.usedSpace - o⟩ gs name)
      (.enum ty vals d) = .err .unknownEnumVariant := key _
  rw [this]
  rfl

/-- **C67** likewise a union whose tag the reader does not know: the error, never a value taken for another member. -/
theorem C67_unknown_member (gm m : Mode) (t t' : Ir.Table) (gs gs' : List GField) (hc : compileTable gm t = some gs)
    (hc' : compileTable gm t' = some gs') (hw : List.Forall₂ WidensField t.fields t'.fields)
    (hn : t'.fields.length ≤ 32765) (b b₁ b₂ : Builder) (args : Args gs') (o : Nat) (rest : List Op)
    (rets : List (Option Nat)) (hi : Idle m b) (h : create m b gs' args = .ok (o, b₁))
    (hfit : m = .release → o - b.usedSpace < 65536) (e : run m b₁ rest = .ok (rets, b₂)) (hr : NoReset rest)
    (hs : b₂.usedSpace < 2 ^ 31) (i : Fin gs.length) (vs : List FTy) (hk : (gs.get i).kind = .union vs) (n : Nat)
    (hv : args.variant? gs' ((gs.get i).name ++ c!"_type") = some n) (hge : vs.length + 1 ≤ n) :
    accessor m ⟨b₂.unfinishedData, b₂.usedSpace - o⟩ gs (gs.get i) = .err .unknownEnumVariant := by
  have hgw := compileFields_wider hw (compileTable_fields hc) (compileTable_fields hc')
  have hg := compile_good (compileTable_fields hc') hn
  have hT := tableReads hi (create_builds h hg hfit).1 e hr hs
  obtain ⟨j, ty, vals, d, j1, j2, j3, j4⟩ := union_tag hc hk
  have hj' : j.val < gs'.length := by rw [← hgw.length_eq]; exact j.isLt
  have hnm : (gs'.get ⟨j.val, hj'⟩).name = (gs.get j).name := ((List.forall₂_iff_get.mp hgw).2 j.val j.isLt hj').name
  rw [← j1, ← hnm, variant?_name (names_nodup hc')] at hv
  have key := unknown_get hgw (compile_kinds (compileTable_fields hc')) hT j.isLt hj' j2 hv (by omega)
  have hf := find_name (names_nodup hc) j
  rw [j1] at hf
  have ht : tagOf m ⟨b₂.unfinishedData, b₂.usedSpace - o⟩ gs (gs.get i).name = .err .unknownEnumVariant := by
    unfold tagOf
    rw [hf]
    have key : ∀ dflt, Table.get m ⟨b₂.unfinishedData, b₂.usedSpace - o⟩ (enumFTy ty vals) (gs.get j).slot dflt = _ := key
    generalize gs.get j = g at *
    obtain ⟨name, slot, k, r⟩ := g
    simp only at j2
    subst j2
    simp only [key]
    rfl
  unfold accessor
  generalize gs.get i = g at *
  obtain ⟨name, slot, k, r⟩ := g
  simp only at hk ht
  subst hk
  simp only [ht]
  rfl

/-! ### A concrete pair of versions

The schema of Props/Tree, and a later version in which `T` has four more fields, one of them a union with its tag, `A`
one more, and which has a new table `N`. -/

def exFieldsMore : List Ir.Field :=
  [⟨c!"level", .builtin .uint, some (.scalar (.integer 3)), false, []⟩, ⟨c!"news", .array (.table [c!"N"]), none, false, []⟩,
   ⟨c!"what_type", exTag, none, false, []⟩, ⟨c!"what", exUnion, none, false, []⟩]

def exTable2 : Ir.Table := ⟨[c!"T"], exFields ++ exFieldsMore, true, []⟩
def exLeaf2 : Ir.Table := ⟨[c!"A"], exLeaf.fields ++ [⟨c!"n", .table [c!"N"], none, false, []⟩], false, []⟩
def exNew : Ir.Table := ⟨[c!"N"], [⟨c!"text", .string, none, false, []⟩], false, []⟩

def exSchema2 : Tables := fun q =>
  if q = [c!"T"] then some exTable2 else if q = [c!"A"] ∨ q = [c!"B"] then some exLeaf2
  else if q = [c!"N"] then some exNew else none

theorem exSchema_cases {q : Ir.QIdent} {t : Ir.Table} (h : exSchema q = some t) :
    q = [c!"T"] ∧ t = exTable ∨ (q = [c!"A"] ∨ q = [c!"B"]) ∧ t = exLeaf := by
  unfold exSchema at h
  split at h
  · exact .inl ⟨‹_›, (Option.some.inj h).symm⟩
  · split at h
    · exact .inr ⟨‹_›, (Option.some.inj h).symm⟩
    · cases h

theorem exSchema2_cases {q : Ir.QIdent} {t : Ir.Table} (h : exSchema2 q = some t) :
    q = [c!"T"] ∧ t = exTable2 ∨ (q = [c!"A"] ∨ q = [c!"B"]) ∧ t = exLeaf2 ∨ q = [c!"N"] ∧ t = exNew := by
  unfold exSchema2 at h
  split at h
  · exact .inl ⟨‹_›, (Option.some.inj h).symm⟩
  · split at h
    · exact .inr (.inl ⟨‹_›, (Option.some.inj h).symm⟩)
    · split at h
      · exact .inr (.inr ⟨‹_›, (Option.some.inj h).symm⟩)
      · cases h

theorem exUnion_known {S : Tables} {ta tb : Ir.Table} (ha : S [c!"A"] = some ta) (hb : S [c!"B"] = some tb) :
    Known S exUnion := by
  refine .union ?_
  simp only [List.mem_cons, List.not_mem_nil, or_false]
  rintro u (rfl | rfl)
  · exact .table ha
  · exact .table hb

/-- The later version reads the data of the earlier one, and the earlier one that of the later one. -/
theorem exVersions (gm : Mode) : Compatible gm exSchema exSchema2 ∧ Compatible gm exSchema2 exSchema := by
  have k1 : ∀ f ∈ exFields, Known exSchema f.ty := by
    simp only [exFields, List.mem_cons, List.not_mem_nil, or_false]
    rintro f (rfl | rfl | rfl | rfl | rfl | rfl)
    · exact .builtin _
    · exact .enum ..
    · exact .string
    · exact .table (t := exTable) rfl
    · exact .enum ..
    · exact exUnion_known (ta := exLeaf) (tb := exLeaf) rfl rfl
  have k2 : ∀ f ∈ exLeaf.fields, ∀ S, Known S f.ty := by
    simp only [exLeaf, List.mem_cons, List.not_mem_nil, or_false]
    rintro f (rfl | rfl | rfl) S
    · exact .array (.builtin _)
    · exact .array .string
    · exact .array (.enum ..)
  have k3 : ∀ f ∈ exFields ++ exFieldsMore, Known exSchema2 f.ty := by
    simp only [exFields, exFieldsMore, List.mem_append, List.mem_cons, List.not_mem_nil, or_false]
    rintro f ((rfl | rfl | rfl | rfl | rfl | rfl) | (rfl | rfl | rfl | rfl))
    · exact .builtin _
    · exact .enum ..
    · exact .string
    · exact .table (t := exTable2) rfl
    · exact .enum ..
    · exact exUnion_known (ta := exLeaf2) (tb := exLeaf2) rfl rfl
    · exact .builtin _
    · exact .array (.table (t := exNew) rfl)
    · exact .enum ..
    · exact exUnion_known (ta := exLeaf2) (tb := exLeaf2) rfl rfl
  refine ⟨⟨?_, ?_⟩, ⟨?_, ?_⟩⟩
  · intro q t t' h h'
    rcases exSchema_cases h with ⟨rfl, rfl⟩ | ⟨rfl | rfl, rfl⟩ <;> cases h' <;>
      exact .inl ⟨_, rfl, by decide⟩
  · intro q t h
    rcases exSchema2_cases h with ⟨rfl, rfl⟩ | ⟨_, rfl⟩ | ⟨rfl, rfl⟩
    · exact ⟨⟨_, by cases gm <;> rfl⟩, by decide, k3⟩
    · refine ⟨⟨_, by cases gm <;> rfl⟩, by decide, ?_⟩
      intro f hf
      rcases List.mem_append.mp hf with hf | hf
      · exact k2 f hf _
      · simp only [List.mem_singleton] at hf
        subst hf
        exact .table (t := exNew) rfl
    · refine ⟨⟨_, by cases gm <;> rfl⟩, by decide, ?_⟩
      intro f hf
      simp only [exNew, List.mem_singleton] at hf
      subst hf
      exact .string
  · intro q t t' h h'
    rcases exSchema_cases h' with ⟨rfl, rfl⟩ | ⟨rfl | rfl, rfl⟩ <;> cases h <;>
      exact .inr ⟨_, rfl⟩
  · intro q t h
    rcases exSchema_cases h with ⟨rfl, rfl⟩ | ⟨_, rfl⟩
    · exact ⟨⟨_, exTable_compiles gm⟩, by decide, k1⟩
    · exact ⟨⟨_, exLeaf_compiles gm⟩, by decide, fun f hf => k2 f hf _⟩

/-- The hypotheses of C66 are met: the tree `exVal` of Props/Tree, written with the earlier version, is read with the
later one, in every profile; the new fields of the root have their defaults. -/
example (gm m : Mode) : ∃ (b₁ b₂ : Builder) (o : Fin (2 ^ 32)) (data : Bytes) (root : Table) (ys : List (Option Val)),
    Written gm m exSchema b₁ (.table [c!"T"]) exVal o.val ∧ Finishes m b₁ [] o none true b₂ ∧
    b₂.finishedData m = .ok data ∧ Table.getSizePrefixedRoot m data = .ok root ∧
    (∃ N, ∀ n, N ≤ n → readVal gm m exSchema2 n (.table [c!"T"]) (.fwdU .table) root = .ok (.table ys)) ∧
    ys.drop 6 = [some (.bits 3), none, none, none] := by
  obtain ⟨b₀, h₀⟩ : ∃ b₀, Builder.newWithCapacity 0 = .ok b₀ := ⟨_, rfl⟩
  obtain ⟨o, b₁, b₂, _, _, _, _, hw, e₂, hu, _⟩ := C65_write_read gm m exSchema _ _ _ (exVal_conforms gm) (by decide) 0 b₀
    h₀ none nofun true
  have hf : Finishes m b₁ [] o none true b₂ := ⟨⟨b₁, [], rfl, e₂⟩, nofun, nofun⟩
  obtain ⟨data, root, v', k1, k2, k3, k4⟩ := C66_finished gm m exSchema exSchema2 (exVersions gm).1 b₁ b₂ _ exTable2 rfl
    exVal o hw [] none true hf hu
  have : ∃ ys, v' = .table ys ∧ ys.drop 6 = [some (.bits 3), none, none, none] := by
    unfold exVal at k3
    cases k3 with
    | @table _ t t' gs' xs ys hq hq' hc hx hy hf hs ha =>
      refine ⟨ys, rfl, ?_⟩
      cases hq'
      have hg : gs' = exGen ++ [⟨c!"level", 16, .scalar .u32 (some (Fin.ofNat _ 3)), false⟩,
          ⟨c!"news", 18, .ref (.vector (.fwdU .table)), false⟩,
          ⟨c!"what_type", 20, .enum .u8 [Fin.ofNat _ 0, Fin.ofNat _ 1, Fin.ofNat _ 2] none, false⟩,
          ⟨c!"what", 22, .union [.fwdU .table, .fwdU .table], false⟩] := by
        have : compileTable gm exTable2 = some (exGen ++ [⟨c!"level", 16, .scalar .u32 (some (Fin.ofNat _ 3)), false⟩,
          ⟨c!"news", 18, .ref (.vector (.fwdU .table)), false⟩,
          ⟨c!"what_type", 20, .enum .u8 [Fin.ofNat _ 0, Fin.ofNat _ 1, Fin.ofNat _ 2] none, false⟩,
          ⟨c!"what", 22, .union [.fwdU .table, .fwdU .table], false⟩]) := by cases gm <;> rfl
        rw [this] at hc
        exact (Option.some.inj hc).symm
      subst hg
      have hy : ys.length = 10 := hy
      have h6 := ha 6 _ _ (by decide) rfl (List.getElem?_eq_getElem (by omega))
      have h7 := ha 7 _ _ (by decide) rfl (List.getElem?_eq_getElem (by omega))
      have h8 := ha 8 _ _ (by decide) rfl (List.getElem?_eq_getElem (by omega))
      have h9 := ha 9 _ _ (by decide) rfl (List.getElem?_eq_getElem (by omega))
      rw [List.drop_eq_getElem_cons (by omega), List.drop_eq_getElem_cons (by omega),
        List.drop_eq_getElem_cons (by omega), List.drop_eq_getElem_cons (by omega), List.drop_eq_nil_of_le (by omega),
        h6, h7, h8, h9]
      rfl
  obtain ⟨ys, rfl, hys⟩ := this
  exact ⟨b₁, b₂, o, data, root, ys, hw, hf, k1, k2, k4, hys⟩

/-! ### A schema with more variants

A fourth colour and a third member of the union. -/

def exColor3 : List Ir.EnumVariant := exColor ++ [⟨c!"Pink", none, []⟩]
def exTag3 : Ir.Ty := .enum [c!"butte_gen", c!"UType"] ([⟨c!"None", some 0, []⟩, ⟨c!"A", none, []⟩, ⟨c!"B", none, []⟩] ++ [⟨c!"C", none, []⟩]) .ubyte
def exUnion3 : Ir.Ty := .union [c!"U"] [c!"butte_gen", c!"UType"]
  ([⟨c!"A", .table [c!"A"], []⟩, ⟨c!"B", .table [c!"B"], []⟩] ++ [⟨c!"C", .table [c!"T"], []⟩])

def exTable3 : Ir.Table := ⟨[c!"T"],
  [⟨c!"hp", .builtin .short, some (.scalar (.integer 100)), false, []⟩,
   ⟨c!"color", .enum [c!"Color"] exColor3 .byte, some (.ident c!"Green"), false, []⟩,
   ⟨c!"name", .string, none, true, []⟩, ⟨c!"friend", .table [c!"T"], none, false, []⟩,
   ⟨c!"pick_type", exTag3, none, false, []⟩, ⟨c!"pick", exUnion3, none, false, []⟩], false, []⟩

def exLeaf3 : Ir.Table := ⟨[c!"A"],
  [⟨c!"ids", .array (.builtin .int), none, false, []⟩, ⟨c!"tags", .array .string, none, true, []⟩,
   ⟨c!"colors", .array (.enum [c!"Color"] exColor3 .byte), none, false, []⟩], false, []⟩

def exSchema3 : Tables := fun q =>
  if q = [c!"T"] then some exTable3 else if q = [c!"A"] ∨ q = [c!"B"] then some exLeaf3 else none

def exGen3 : List GField :=
  [⟨c!"hp", 4, .scalar .i16 (some (Fin.ofNat _ 100)), false⟩,
   ⟨c!"color", 6, .enum .i8 [Fin.ofNat _ 0, Fin.ofNat _ 4, Fin.ofNat _ 2, Fin.ofNat _ 3] (some ⟨1, by decide⟩), false⟩,
   ⟨c!"name", 8, .ref .str, true⟩, ⟨c!"friend", 10, .ref .table, false⟩,
   ⟨c!"pick_type", 12, .enum .u8 [Fin.ofNat _ 0, Fin.ofNat _ 1, Fin.ofNat _ 2, Fin.ofNat _ 3] none, false⟩,
   ⟨c!"pick", 14, .union [.fwdU .table, .fwdU .table, .fwdU .table], false⟩]

theorem exTable3_compiles (gm : Mode) : compileTable gm exTable3 = some exGen3 := by cases gm <;> rfl

theorem exTable3_widens : List.Forall₂ WidensField exTable.fields exTable3.fields :=
  .cons ⟨rfl, rfl, rfl, .refl _⟩ <| .cons ⟨rfl, rfl, rfl, .enum ..⟩ <| .cons ⟨rfl, rfl, rfl, .refl _⟩ <|
    .cons ⟨rfl, rfl, rfl, .refl _⟩ <| .cons ⟨rfl, rfl, rfl, .enum ..⟩ <| .cons ⟨rfl, rfl, rfl, .union ..⟩ .nil

theorem exMoreVariants (gm : Mode) : MoreVariants gm exSchema exSchema3 := by
  intro q t h
  have hl : ∃ gs', compileTable gm exLeaf3 = some gs' ∧ List.Forall₂ WidensField exLeaf.fields exLeaf3.fields :=
    ⟨_, by cases gm <;> rfl, .cons ⟨rfl, rfl, rfl, .refl _⟩ <| .cons ⟨rfl, rfl, rfl, .refl _⟩ <|
      .cons ⟨rfl, rfl, rfl, .array (.enum ..)⟩ .nil⟩
  rcases exSchema_cases h with ⟨rfl, rfl⟩ | ⟨rfl | rfl, rfl⟩
  · exact ⟨exTable3, exGen3, rfl, exTable3_compiles gm, exTable3_widens⟩
  · exact ⟨exLeaf3, _, rfl, hl.choose_spec⟩
  · exact ⟨exLeaf3, _, rfl, hl.choose_spec⟩

/-- The hypotheses of `C67_more_variants` are met: the tree `exVal`, written with the schema of Props/Tree, is data of
the schema with more variants. -/
example (gm m : Mode) : ∃ (b₁ : Builder) (o : Fin (2 ^ 32)), Written gm m exSchema b₁ (.table [c!"T"]) exVal o.val ∧
    Written gm m exSchema3 b₁ (.table [c!"T"]) exVal o.val := by
  obtain ⟨b₀, h₀⟩ : ∃ b₀, Builder.newWithCapacity 0 = .ok b₀ := ⟨_, rfl⟩
  obtain ⟨o, b₁, b₂, _, _, _, _, hw, _⟩ := C65_write_read gm m exSchema _ _ _ (exVal_conforms gm) (by decide) 0 b₀
    h₀ none nofun true
  exact ⟨b₁, o, hw, C67_more_variants gm m exSchema exSchema3 (exMoreVariants gm) b₁ _ _ _ _ hw (.refl _) rfl⟩

/-- `hp` 7, colour `Pink`, the string at 8 as name, no friend, member `C` of the union at 16. -/
def exArgs3 : Args exGen3 :=
  (Fin.ofNat _ 7, (⟨3, by decide⟩, (⟨8, by decide⟩, (none, (⟨3, by decide⟩, (some ⟨16, by decide⟩, ()))))))

/-- The hypotheses of `C67_unknown_variant` and `C67_unknown_member` are met: to a reader of the earlier version the
colour `Pink` and the member `C` are errors. -/
example (gm m : Mode) : ∃ b o b₁, Idle m b ∧ compileTable gm exTable3 = some exGen3 ∧
    create m b exGen3 exArgs3 = .ok (o, b₁) ∧
    accessor m ⟨b₁.unfinishedData, b₁.usedSpace - o⟩ exGen (exGen.get ⟨1, by decide⟩) = .err .unknownEnumVariant ∧
    accessor m ⟨b₁.unfinishedData, b₁.usedSpace - o⟩ exGen (exGen.get ⟨5, by decide⟩) = .err .unknownEnumVariant := by
  obtain ⟨b, o, b', h1, h2, h3⟩ := exCreate_ex (m := m) (gs := exGen3) (pre := exPre) (args := exArgs3)
    (p := fun r => decide (r.2.1 - r.1.usedSpace < 65536 ∧ r.2.2.usedSpace < 2 ^ 31))
    ⟨[.createString "hi", .startTable, .endTable 8], [], rfl, Or.inr ⟨[.createString "hi", .startTable], 8, rfl⟩, nofun⟩ (by cases m <;> decide)
  simp only [decide_eq_true_eq] at h3
  refine ⟨b, o, b', h1, exTable3_compiles gm, h2, ?_, ?_⟩
  · exact C67_unknown_variant gm m exTable exTable3 exGen exGen3 (exTable_compiles gm) (exTable3_compiles gm) exTable3_widens
      (by decide) b b' b' exArgs3 o [] [] h1 h2 (fun _ => h3.1) rfl nofun h3.2 1 (by decide) (by decide) _ _ _ rfl 3 rfl
      (by decide)
  · exact C67_unknown_member gm m exTable exTable3 exGen exGen3 (exTable_compiles gm) (exTable3_compiles gm) exTable3_widens
      (by decide) b b' b' exArgs3 o [] [] h1 h2 (fun _ => h3.1) rfl nofun h3.2 ⟨5, by decide⟩ _ rfl 3 rfl (by decide)

end Butte
