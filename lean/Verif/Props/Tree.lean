import Verif.Gen.WriteOk
import Verif.Props.Gen
/-
Properties C64 and C65: whole object graphs, written and read with generated code.
-/
namespace Butte
open Gen

set_option maxRecDepth 8000

/-! ### C64 -/

/-- **C64** whatever was written, bottom up, by calls of the builder and of the generated `create` functions, in any
order and with any sharing, is read back as a whole through the generated accessors, whatever is written later: the
same strings, the same vectors, the same tables with the same fields, to any depth (scalar fields up to the sign of a
floating-point zero, see C20). -/
theorem C64_tree_round_trip (gm m : Mode) (S : Tables) (b b₂ : Builder) (ty : Ir.Ty) (v : Val) (o : Nat)
    (h : Written gm m S b ty v o) (rest : List Op) (rets : List (Option Nat)) (e : run m b rest = .ok (rets, b₂))
    (hr : NoReset rest) (hs : b₂.usedSpace < 2 ^ 31) :
    o ≤ b₂.usedSpace ∧ ∃ F x v', followTy ty = some (.fwdU F) ∧
      F.follow m b₂.unfinishedData (b₂.usedSpace - o) = .ok x ∧ Same v v' ∧
      ∃ N, ∀ n, N ≤ n → readVal gm m S n ty (.fwdU F) x = .ok v' := by
  obtain ⟨h1, F, h2, x, h3, v', N, h4⟩ := h.reads (sees_self gm S) trivial rest rets b₂ e hr hs
  exact ⟨h1, F, x, v', h2, h3, (h4 N (Nat.le_refl _)).1.same, N, fun n hn => (h4 n hn).2⟩

/-- **C64** the same for the root of a finished buffer, found by the generated `get_root`. -/
theorem C64_finished (gm m : Mode) (S : Tables) (b b₂ : Builder) (q : Ir.QIdent) (v : Val) (o : Fin (2 ^ 32))
    (h : Written gm m S b (.table q) v o.val) (rest : List Op) (ident : Option Bytes) (sp : Bool)
    (hf : Finishes m b rest o ident sp b₂) (hs : b₂.usedSpace < 2 ^ 31) :
    ∃ data root v', b₂.finishedData m = .ok data ∧
      (if sp then Table.getSizePrefixedRoot m data else Table.getRoot m data) = .ok root ∧ Same v v' ∧
      ∃ N, ∀ n, N ≤ n → readVal gm m S n (.table q) (.fwdU .table) root = .ok v' := by
  obtain ⟨b', rets, e1, e2⟩ := hf.calls
  have e : run m b (rest ++ [.finish o ident sp]) = .ok (rets ++ [none], b₂) :=
    run_append.mpr ⟨rets, b', [none], e1, run_singleton.mpr ⟨none, e2, rfl⟩, rfl⟩
  have hnr : NoReset (rest ++ [.finish o ident sp]) := by
    intro op hop
    rcases List.mem_append.mp hop with hop | hop
    · exact hf.noReset op hop
    · simp only [List.mem_singleton] at hop; subst hop; rfl
  have hmono := used_mono h.reachable e hnr (by omega)
  obtain ⟨hle, -⟩ := C64_tree_round_trip gm m S b b (.table q) v o.val h [] [] rfl nofun (by omega)
  obtain ⟨-, F, x, v', h1, h2, h3, h4⟩ := C64_tree_round_trip gm m S b b₂ (.table q) v o.val h _ _ e hnr hs
  cases h1
  obtain ⟨f1, f2⟩ := C18_root m b b₂ rest o ident sp h.reachable hf hle hs
  cases h2
  exact ⟨_, _, v', f1, f2, h3, h4⟩

/-- **C64** by each of the three calls that finish a buffer: `finish` and `finish_minimal` give one that `get_root` reads,
`finish_size_prefixed` one that `get_size_prefixed_root` reads. -/
theorem C64_finish_calls (gm m : Mode) (S : Tables) (b b₂ : Builder) (q : Ir.QIdent) (v : Val) (o : Fin (2 ^ 32))
    (h : Written gm m S b (.table q) v o.val) (ident : Option Bytes) (hid : ∀ i, ident = some i → i.length = 4)
    (hs : b₂.usedSpace < 2 ^ 31) :
    (b.finish m o.val ident = .ok b₂ ∨ b.finishMinimal m o.val = .ok b₂ →
      ∃ data root v', b₂.finishedData m = .ok data ∧ Table.getRoot m data = .ok root ∧ Same v v' ∧
        ∃ N, ∀ n, N ≤ n → readVal gm m S n (.table q) (.fwdU .table) root = .ok v') ∧
    (b.finishSizePrefixed m o.val ident = .ok b₂ →
      ∃ data root v', b₂.finishedData m = .ok data ∧ Table.getSizePrefixedRoot m data = .ok root ∧ Same v v' ∧
        ∃ N, ∀ n, N ≤ n → readVal gm m S n (.table q) (.fwdU .table) root = .ok v') := by
  have key : ∀ (i : Option Bytes) (sp : Bool), (∀ j, i = some j → j.length = 4) → b.finishWithOpts m o.val i sp = .ok b₂ →
      Finishes m b [] o i sp b₂ := fun i sp hi e =>
    ⟨⟨b, [], rfl, by
      show noRet (b.finishWithOpts m o.val i sp) = _
      rw [e]; rfl⟩, nofun, hi⟩
  refine ⟨fun e => ?_, fun e => ?_⟩
  · rcases e with e | e
    · exact C64_finished gm m S b b₂ q v o h [] ident false (key ident false hid e) hs
    · exact C64_finished gm m S b b₂ q v o h [] none false (key none false nofun e) hs
  · exact C64_finished gm m S b b₂ q v o h [] ident true (key ident true hid e) hs

/-! ### C65 -/

/-- **C65** every tree that conforms to the schema (no required scalar or enum equal to its default, see C35) and for
which there is room can be written, children first, with the generated code to a new builder of any initial capacity,
`finish` completes, and reading the finished buffer from its root with the generated accessors returns the tree. -/
theorem C65_write_read (gm m : Mode) (S : Tables) (q : Ir.QIdent) (v : Val) (n : Nat)
    (h : Conforms gm S (.table q) v n) (hn : n + 65576 ≤ 2 ^ 31 - 2 ^ 17) (cap : Nat) (b₀ : Builder)
    (h₀ : Builder.newWithCapacity cap = .ok b₀) (ident : Option Bytes) (hid : ∀ i, ident = some i → i.length = 4)
    (sp : Bool) :
    ∃ (o : Fin (2 ^ 32)) (b₁ b₂ : Builder) (data : Bytes) (root : Table) (v' : Val),
      writeVal gm m S n b₀ (.table q) v = .ok (o.val, b₁) ∧ Written gm m S b₁ (.table q) v o.val ∧
      step m b₁ (.finish o ident sp) = .ok (none, b₂) ∧ b₂.usedSpace < 2 ^ 31 ∧ b₂.finishedData m = .ok data ∧
      (if sp then Table.getSizePrefixedRoot m data else Table.getRoot m data) = .ok root ∧ Same v v' ∧
      ∃ N, ∀ k, N ≤ k → readVal gm m S k (.table q) (.fwdU .table) root = .ok v' := by
  have hr : Ready m b₀ .start :=
    ⟨⟨_, new_R h₀, Tracks.start m⟩, ⟨cap, b₀, [], [], h₀, rfl, [], [], rfl, .inl rfl, nofun⟩, rfl⟩
  have hu : b₀.usedSpace = 0 := by rw [(new_R h₀).used]; rfl
  obtain ⟨o, b₁, c, e, hm, ho, hw⟩ := h.canWrite n (Nat.le_refl _) b₀ .start hr (by omega)
  have hlt := hm.ready.knownLt ho
  obtain ⟨a, hR, ht⟩ := hm.ready.track
  have hused := hm.used
  obtain ⟨r, a', f, ht'⟩ := ht.step (op := .finish ⟨o, hlt⟩ ident sp)
    ⟨hm.ready.nothing, by rw [hm.finished]; rfl, ho, hid⟩ (by rw [← hR.used]; simp only [Op.need]; omega) nofun
  obtain ⟨b₂, e₂, hR'⟩ := hR.step_small f ht'.len
  have hrn : r = none := by
    simp only [stepA, noRetA] at f
    obtain ⟨_, _, f⟩ := Res.bind_eq_ok.mp f
    cases f; rfl
  subst hrn
  have hlen := ht'.len
  obtain ⟨data, root, v', k1, k2, k3, k4⟩ := C64_finished gm m S b₁ b₂ q v ⟨o, hlt⟩ hw [] ident sp
    ⟨⟨b₁, [], rfl, e₂⟩, nofun, hid⟩ (by rw [hR'.used]; omega)
  exact ⟨⟨o, hlt⟩, b₁, b₂, data, root, v', e, hw, e₂, by rw [hR'.used]; omega, k1, k2, k3, k4⟩

/-- **C65** different trees give different buffers: from equal finished buffers the same tree is read, so that the
trees written agree (up to the sign of floating-point zeros). -/
theorem C65_injective (gm m : Mode) (S : Tables) (q : Ir.QIdent) (b b' c c' : Builder) (v w : Val) (o p : Fin (2 ^ 32))
    (hv : Written gm m S b (.table q) v o.val) (hw : Written gm m S c (.table q) w p.val) (r₁ r₂ : List Op)
    (i₁ i₂ : Option Bytes) (sp : Bool) (h₁ : Finishes m b r₁ o i₁ sp b') (h₂ : Finishes m c r₂ p i₂ sp c')
    (s₁ : b'.usedSpace < 2 ^ 31) (s₂ : c'.usedSpace < 2 ^ 31) (he : b'.finishedData m = c'.finishedData m) :
    ∃ u, Same v u ∧ Same w u := by
  obtain ⟨d₁, t₁, u, x1, x2, x3, N, x4⟩ := C64_finished gm m S b b' q v o hv r₁ i₁ sp h₁ s₁
  obtain ⟨d₂, t₂, u', y1, y2, y3, M, y4⟩ := C64_finished gm m S c c' q w p hw r₂ i₂ sp h₂ s₂
  rw [he, y1] at x1
  cases x1
  rw [y2] at x2
  cases x2
  have e1 := x4 (max N M) (by omega)
  rw [y4 (max N M) (by omega)] at e1
  cases e1
  exact ⟨u, x3, y3⟩

/-! ### A concrete tree

The table `T` of Props/Gen with `table A { ids: [int]; tags: [string]; colors: [Color]; }` for both members of the
union. -/

def exLeaf : Ir.Table := ⟨[c!"A"],
  [⟨c!"ids", .array (.builtin .int), none, false, []⟩, ⟨c!"tags", .array .string, none, true, []⟩,
   ⟨c!"colors", .array (.enum [c!"Color"] exColor .byte), none, false, []⟩], false, []⟩

def exSchema : Tables := fun q =>
  if q = [c!"T"] then some exTable else if q = [c!"A"] ∨ q = [c!"B"] then some exLeaf else none

def exLeafGen : List GField :=
  [⟨c!"ids", 4, .ref (.vector (.scalar .i32)), false⟩, ⟨c!"tags", 6, .ref (.vector (.fwdU .str)), true⟩,
   ⟨c!"colors", 8, .ref (.vector (.enum .i8 [0, 4, 2])), false⟩]

theorem exLeaf_compiles (gm : Mode) : compileTable gm exLeaf = some exLeafGen := by cases gm <;> rfl

/-- `A { ids: [1, 65536], tags: ["x", "", "yz"], colors: [Blue, Red] }` -/
def exLeafVal : Val := .table
  [some (.vec [.bits 1, .bits 65536]), some (.vec [.str "x", .str "", .str "yz"]), some (.vec [.variant 2, .variant 0])]

/-- A `T` with a name only. -/
def exFriend : Val := .table [some (.bits 100), some (.variant 1), some (.str "friend"), none, some (.variant 0), none]

/-- A `T` with a friend and a union value. -/
def exVal : Val := .table [some (.bits 7), some (.variant 2), some (.str "root"), some exFriend, some (.variant 2),
  some (.union 1 exLeafVal)]

theorem exLeaf_conforms (gm : Mode) : Conforms gm exSchema (.table [c!"B"]) exLeafVal 167 := by
  have h1 : Conforms gm exSchema (.array (.builtin .int)) (.vec [.bits 1, .bits 65536]) 24 :=
    .scalars .int [Fin.ofNat _ 1, Fin.ofNat _ 65536]
  have h2 : Conforms gm exSchema (.array .string) (.vec [.str "x", .str "", .str "yz"]) 79 := by
    refine .vec (F := .str) rfl (ns := [17, 16, 18]) rfl ?_
    intro i v n hv hn
    rcases i with _ | _ | _ | i
    · cases hv; cases hn; exact .string "x"
    · cases hv; cases hn; exact .string ""
    · cases hv; cases hn; exact .string "yz"
    · cases hv
  have h3 : Conforms gm exSchema (.array (.enum [c!"Color"] exColor .byte)) (.vec [.variant 2, .variant 0]) 18 :=
    .enums [c!"Color"] exColor .byte (vals := [Fin.ofNat _ 0, Fin.ofNat _ 4, Fin.ofNat _ 2]) (by decide) [2, 0]
  refine .table (t := exLeaf) (gs := exLeafGen) (ns := [24, 79, 18])
    (xs := [some (.vec [.bits 1, .bits 65536]), some (.vec [.str "x", .str "", .str "yz"]), some (.vec [.variant 2, .variant 0])])
    rfl (exLeaf_compiles gm) (by decide) (by decide) rfl rfl ?_ ?_
  · intro i x hx
    obtain ⟨i, hi⟩ := i
    rcases i with _ | _ | _ | i
    · cases hx; trivial
    · cases hx; trivial
    · cases hx; trivial
    · cases hx
  · intro i f x n ty v hf hx hn hb
    rcases i with _ | _ | _ | i
    · cases hf; cases hx; cases hn; cases hb; exact h1
    · cases hf; cases hx; cases hn; cases hb; exact h2
    · cases hf; cases hx; cases hn; cases hb; exact h3
    · cases hf

theorem exFriend_conforms (gm : Mode) : Conforms gm exSchema (.table [c!"T"]) exFriend 82 := by
  refine .table (t := exTable) (gs := exGen) (ns := [0, 0, 22, 0, 0, 0]) (q := [c!"T"])
    (xs := [some (.bits 100), some (.variant 1), some (.str "friend"), none, some (.variant 0), none])
    rfl (exTable_compiles gm) (by decide) (by decide) rfl rfl ?_ ?_
  · intro i x hx
    obtain ⟨i, hi⟩ := i
    rcases i with _ | _ | _ | _ | _ | _ | i
    · cases hx; exact ⟨by decide, nofun⟩
    · cases hx; exact ⟨by decide, nofun⟩
    · cases hx; trivial
    · cases hx; rfl
    · cases hx; exact ⟨by decide, nofun⟩
    · cases hx; rfl
    · cases hx
  · intro i f x n ty v hf hx hn hb
    rcases i with _ | _ | _ | _ | _ | _ | i
    · cases hf; cases hx; cases hb
    · cases hf; cases hx; cases hb
    · cases hf; cases hx; cases hn; cases hb; exact .string "friend"
    · cases hf; cases hx; cases hb
    · cases hf; cases hx; cases hb
    · cases hf; cases hx; cases hb
    · cases hf

/-- C64, C65: three levels of tables, vectors of scalars, strings and enum values, and a union. -/
theorem exVal_conforms (gm : Mode) : Conforms gm exSchema (.table [c!"T"]) exVal 329 := by
  refine .table (t := exTable) (gs := exGen) (ns := [0, 0, 20, 82, 0, 167])
    (xs := [some (.bits 7), some (.variant 2), some (.str "root"), some exFriend, some (.variant 2), some (.union 1 exLeafVal)])
    rfl (exTable_compiles gm) (by decide) (by decide) rfl rfl ?_ ?_
  · intro i x hx
    obtain ⟨i, hi⟩ := i
    rcases i with _ | _ | _ | _ | _ | _ | i
    · cases hx; exact ⟨by decide, nofun⟩
    · cases hx; exact ⟨by decide, nofun⟩
    · cases hx; trivial
    · cases hx; trivial
    · cases hx; exact ⟨by decide, nofun⟩
    · cases hx; exact ⟨by decide, rfl⟩
    · cases hx
  · intro i f x n ty v hf hx hn hb
    rcases i with _ | _ | _ | _ | _ | _ | i
    · cases hf; cases hx; cases hb
    · cases hf; cases hx; cases hb
    · cases hf; cases hx; cases hn; cases hb; exact .string "root"
    · cases hf; cases hx; cases hn; cases hb; exact exFriend_conforms gm
    · cases hf; cases hx; cases hb
    · cases hf; cases hx; cases hn; cases hb; exact exLeaf_conforms gm
    · cases hf

/-- The hypotheses of C64 and C65 are met by this tree, in every profile. -/
example (gm m : Mode) : ∃ (b₀ b₁ b₂ : Builder) (o : Fin (2 ^ 32)), Builder.newWithCapacity 0 = .ok b₀ ∧
    Conforms gm exSchema (.table [c!"T"]) exVal 329 ∧ Written gm m exSchema b₁ (.table [c!"T"]) exVal o.val ∧
    Finishes m b₁ [] o (some [65, 66, 67, 68]) false b₂ ∧ b₂.usedSpace < 2 ^ 31 := by
  obtain ⟨b₀, h₀⟩ : ∃ b₀, Builder.newWithCapacity 0 = .ok b₀ := ⟨_, rfl⟩
  have hc := exVal_conforms gm
  obtain ⟨o, b₁, b₂, _, _, _, _, hw, e₂, hu, _⟩ := C65_write_read gm m exSchema _ _ _ hc (by decide) 0 b₀ h₀ (some [65, 66, 67, 68])
    (by rintro i ⟨⟩; rfl) false
  exact ⟨b₀, b₁, b₂, o, h₀, hc, hw, ⟨⟨b₁, [], rfl, e₂⟩, nofun, by rintro i ⟨⟩; rfl⟩, hu⟩

/-- The same with the size in front. -/
example (gm m : Mode) : ∃ (b₁ b₂ : Builder) (o : Fin (2 ^ 32)), Written gm m exSchema b₁ (.table [c!"T"]) exVal o.val ∧
    b₁.finishSizePrefixed m o.val none = .ok b₂ ∧ b₂.usedSpace < 2 ^ 31 := by
  obtain ⟨b₀, h₀⟩ : ∃ b₀, Builder.newWithCapacity 0 = .ok b₀ := ⟨_, rfl⟩
  obtain ⟨o, b₁, b₂, _, _, _, _, hw, e₂, hu, _⟩ := C65_write_read gm m exSchema _ _ _ (exVal_conforms gm) (by decide) 0 b₀ h₀ none
    nofun true
  refine ⟨b₁, b₂, o, hw, ?_, hu⟩
  change noRet (b₁.finishWithOpts m o.val none true) = _ at e₂
  obtain ⟨b, e, h⟩ := Res.bind_eq_ok.mp e₂
  cases h
  exact e

end Butte
