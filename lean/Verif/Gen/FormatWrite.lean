import Verif.Gen.FormatRead
import Verif.Rt.TableIn
import Verif.Props.Tables
/-
Writing messages in the FlatBuffers format: whatever the generated code writes is laid out as the format says.
-/
namespace Butte

/-! ### Until `finish` -/

theorem stepA_finished {m : Mode} {a : ABuilder} {op : Op} {r : Option Nat × ABuilder} (h : stepA m a op = .ok r)
    (hn : op.isReset = false) (hf : r.2.finished = false)
    (hl : r.2.data.length < 2 ^ 32) : a.finished = false ∧ op.keepsVTables = true := by
  have always : ∀ {s : Nat} {p : PTy} {x : PVal p} {a' : ABuilder},
      a.pushSlotAlways m s x = .ok a' → a'.finished = a.finished := by
    intro s p x a' h1
    unfold ABuilder.pushSlotAlways at h1
    obtain ⟨_, _, h1⟩ := Res.bind_eq_ok.mp h1
    obtain ⟨r3, h3, h1⟩ := Res.bind_eq_ok.mp h1
    cases h1
    exact (push_fl h3).2.2.2
  cases op <;> simp only [stepA, withRetA, noRetA] at h
  case reset => cases hn
  case required => obtain ⟨_, _, h⟩ := Res.bind_eq_ok.mp h; cases h; exact ⟨hf, rfl⟩
  all_goals
    obtain ⟨r1, h1, h⟩ := Res.bind_eq_ok.mp h
    injection h with h
    subst h
    simp only at hf hl
  case push => exact ⟨(push_fl h1).2.2.2 ▸ hf, rfl⟩
  case pushSlot s p x d =>
    unfold ABuilder.pushSlot at h1
    obtain ⟨_, _, h1⟩ := Res.bind_eq_ok.mp h1
    split at h1
    · cases h1; exact ⟨hf, rfl⟩
    · exact ⟨always h1 ▸ hf, rfl⟩
  case pushSlotAlways s p x => exact ⟨always h1 ▸ hf, rfl⟩
  case startTable =>
    obtain ⟨_, e⟩ := startTable_spec h1
    rw [e] at hf
    exact ⟨hf, rfl⟩
  case endTable t =>
    unfold ABuilder.endTable at h1
    obtain ⟨_, _, h1⟩ := Res.bind_eq_ok.mp h1
    obtain ⟨r2, h2, h1⟩ := Res.bind_eq_ok.mp h1
    cases h1
    obtain ⟨_, _, _, _, _, _, _, _, e, _⟩ := writeVTable_spec h2 hl
    exact ⟨e ▸ hf, rfl⟩
  case startVector =>
    unfold ABuilder.startVector at h1
    obtain ⟨_, _, h1⟩ := Res.bind_eq_ok.mp h1
    obtain ⟨_, _, h1⟩ := Res.bind_eq_ok.mp h1
    exact ⟨(align_fl h1).2.2.2 ▸ hf, rfl⟩
  case endVector =>
    unfold ABuilder.endVector at h1
    obtain ⟨_, _, h1⟩ := Res.bind_eq_ok.mp h1
    exact ⟨(push_fl h1).2.2.2 ▸ hf, rfl⟩
  case createString => exact ⟨(createString_fl h1).2.2.2 ▸ hf, rfl⟩
  case createByteString => exact ⟨(createByteString_fl h1).2.2.2 ▸ hf, rfl⟩
  case createVectorDirect => exact ⟨(createVectorDirect_fl h1).2.2.2 ▸ hf, rfl⟩
  case createVector => exact ⟨(createVector_fl h1).2.2.2 ▸ hf, rfl⟩
  case createVectorOfStrings => exact ⟨(createVectorOfStrings_fl h1).2.2.2 ▸ hf, rfl⟩
  case finish => rw [(finishWithOpts_fl h1).2.2.2] at hf; cases hf

theorem runA_finished {m : Mode} : ∀ {ops : List Op} {a : ABuilder} {r : List (Option Nat) × ABuilder},
    runA m a ops = .ok r → NoReset ops → r.2.finished = false → r.2.data.length < 2 ^ 32 →
    a.finished = false ∧ ∀ op ∈ ops, op.keepsVTables = true
  | [], a, r, h, _, hf, _ => by cases h; exact ⟨hf, by simp⟩
  | op :: ops, a, r, h, hn, hf, hl => by
    unfold runA at h
    obtain ⟨⟨o1, a1⟩, e1, h⟩ := Res.bind_eq_ok.mp h
    obtain ⟨r2, e2, h⟩ := Res.bind_eq_ok.mp h
    cases h
    have hn' : NoReset ops := fun o ho => hn o (List.mem_cons_of_mem _ ho)
    have hx := (runA_ext e2 hn' hl).len
    obtain ⟨h1, h2⟩ := runA_finished e2 hn' hf hl
    simp only at hx hl h1
    obtain ⟨h3, h4⟩ := stepA_finished e1 (hn op (List.mem_cons_self ..)) h1 (by simp only; omega)
    refine ⟨h3, ?_⟩
    intro o ho
    rcases List.mem_cons.mp ho with rfl | ho
    · exact h4
    · exact h2 o ho

/-- `d` is what the data becomes after some more calls without `reset` and then `finish`. -/
structure Closes (m : Mode) (b : Builder) (d : Bytes) : Prop where
  calls : ∃ rest rets b₁ z, run m b rest = .ok (rets, b₁) ∧ NoReset rest ∧ d = z ++ b₁.unfinishedData ∧
    b₁.finished = false ∧ (∀ k, MAOk k → 0 < k → k ≤ b₁.minAlign → d.length % k = 0) ∧ ∀ r ∈ b₁.vtables, r % 2 = 0
  small : d.length < 2 ^ 31

theorem Closes.before {m : Mode} {b b' : Builder} {d : Bytes} {ops : List Op} {rets : List (Option Nat)}
    (h : Closes m b' d) (e : run m b ops = .ok (rets, b')) (hn : NoReset ops) : Closes m b d := by
  obtain ⟨⟨rest, rets', b₁, z, h1, h2, h3⟩, h4⟩ := h
  refine ⟨⟨ops ++ rest, _, b₁, z, run_append.mpr ⟨_, _, _, e, h1, rfl⟩, ?_, h3⟩, h4⟩
  intro op hop
  rcases List.mem_append.mp hop with h | h
  · exact hn op h
  · exact h2 op h

theorem Closes.step {m : Mode} {b b' : Builder} {d : Bytes} {op : Op} {r : Option Nat} (h : Closes m b' d)
    (e : Butte.step m b op = .ok (r, b')) (hn : op.isReset = false) : Closes m b d :=
  h.before (run_singleton.mpr ⟨_, e, rfl⟩) (by simpa [NoReset] using hn)

theorem Closes.view {m : Mode} {b : Builder} {a : ABuilder} {d : Bytes} (h : Closes m b d) (hr : R b a) :
    (∃ z, d = z ++ a.data) ∧ (∀ k, MAOk k → 0 < k → k ≤ a.minAlign → d.length % k = 0) ∧ ∀ r ∈ a.vtables, r % 2 = 0 := by
  obtain ⟨⟨rest, rets, b₁, z, h1, h2, h3, h4, h5, h6⟩, hl⟩ := h
  obtain ⟨a₁, f, r1⟩ := run_fwd rest hr h1
  rw [r1.unfinished] at h3
  have hl1 : a₁.data.length ≤ d.length := by rw [h3]; simp
  obtain ⟨y, hy⟩ := runA_ext f h2 (by simp only; omega)
  have hm := (runA_MA f h2).1
  simp only at hy hm
  obtain ⟨-, hk⟩ := runA_finished f h2 (by rw [← r1.finished]; exact h4) (by simp only; omega)
  refine ⟨⟨z ++ y, by rw [h3, hy]; simp⟩, ?_, ?_⟩
  · intro k k1 k2 k3
    exact h5 k k1 k2 (by rw [r1.minAlign]; omega)
  · intro r hr'
    exact h6 r (by rw [r1.vtables]; exact runA_vtSub f hk (by simp only; omega) r hr')

/-- The data after `finish`. -/
theorem closes_finish {m : Mode} {b b₁ b₂ : Builder} {rest : List Op} {rets : List (Option Nat)} {root : Fin (2 ^ 32)}
    {ident : Option Bytes} {sp : Bool} (hb : Reachable m b) (e : run m b rest = .ok (rets, b₁)) (hn : NoReset rest)
    (ef : Butte.step m b₁ (.finish root ident sp) = .ok (none, b₂)) (hi : ∀ i, ident = some i → i.length = 4)
    (hs : b₂.usedSpace < 2 ^ 31) (hfr : m = .release → b₁.finished = false) (hev : ∀ r ∈ b₁.vtables, r % 2 = 0) :
    Closes m b b₂.unfinishedData := by
  obtain ⟨a, hr⟩ := hb.toR
  obtain ⟨a₁, f1, r1⟩ := run_fwd rest hr e
  obtain ⟨a₂, f2, r2⟩ := r1.step ef
  simp only [stepA, noRetA] at f2
  obtain ⟨a'', f3, f4⟩ := Res.bind_eq_ok.mp f2
  cases f4
  have hu := r2.used
  obtain ⟨z, hz⟩ := finishWithOpts_ext f3
  have hok : MAOk a₁.minAlign := by rw [← r1.minAlign]; exact (hb.run e).maOk
  obtain ⟨_, _, _, _, _, _, _, _, _, g6, _⟩ := finish_spec f3 hok hi (by omega)
  refine ⟨⟨rest, rets, b₁, z, e, hn, by rw [r2.unfinished, r1.unfinished]; exact hz, ?_, ?_, hev⟩, ?_⟩
  · cases m with
    | release => exact hfr rfl
    | debug =>
      rw [r1.finished]
      unfold ABuilder.finishWithOpts at f3
      obtain ⟨_, h0, _⟩ := Res.bind_eq_ok.mp f3
      unfold debugAssert at h0
      split at h0
      · cases h0
      · rename_i h; simpa using h
  · intro k hk h0 hle
    rw [r1.minAlign] at hle
    have hd : k ∣ max a₁.minAlign 4 := by
      unfold MAOk at hk hok
      rcases hok with e | e | e | e | e <;> rw [e] at hle ⊢ <;>
        rcases hk with e' | e' | e' | e' | e' <;> subst e' <;> first | decide | omega
    rw [r2.unfinished]
    exact Nat.mod_eq_zero_of_dvd (Nat.dvd_trans hd (Nat.dvd_of_mod_eq_zero g6))
  · rw [r2.unfinished]; omega

end Butte

namespace Butte.Format
open Ir (QIdent)
open Gen (Val Tables below Same SameField Kind kindOf enumValues builtinSTy enumBaseSTy followTy GField Args compileTable
  fieldValue pointee tagged)

/-! ### Pieces -/

theorem mod_sub {l q w : Nat} (h1 : l % w = 0) (h2 : q % w = 0) : (l - q) % w = 0 :=
  Nat.mod_eq_zero_of_dvd (Nat.dvd_sub (Nat.dvd_of_mod_eq_zero h1) (Nat.dvd_of_mod_eq_zero h2))

theorem BytesAt.split {buf x y : Bytes} {p : Nat} (h : BytesAt buf p (x ++ y)) :
    BytesAt buf p x ∧ BytesAt buf (p + x.length) y := by
  obtain ⟨pre, post, rfl, rfl⟩ := h
  exact ⟨⟨pre, y ++ post, by simp, rfl⟩, ⟨pre ++ x, post, by simp, by simp⟩⟩

theorem offset_at {m : Mode} {d : Bytes} {off : Nat} {x : PVal .off} (h : PAt m d off x) (hx : x.val < off)
    (hl : d.length < 2 ^ 31) :
    OffsetAt d (d.length - off) (off - x.val) ∧ d.length - off + (off - x.val) = d.length - x.val := by
  obtain ⟨h1, bs, h2, h3⟩ := h
  have hle := h3.le
  have h4 : PTy.off.size = 4 := rfl
  simp only [PVal.pushBytes] at h2
  rw [addU_ok (by omega)] at h2
  simp only [Res.ok_bind] at h2
  rw [subU_ok (by omega)] at h2
  simp only [Res.ok_bind] at h2
  cases h2
  rw [Nat.mod_eq_of_lt (by omega), h4, show 4 + (off - 4) = off by omega] at h3
  exact ⟨⟨.of_at h3 (by omega), by omega⟩, by omega⟩

theorem scalar_at {m : Mode} {d : Bytes} {off : Nat} {t : STy} {x : PVal (.sc t)} (h : PAt m d off x) :
    At d off (SVal.bytes x) := by
  obtain ⟨_, bs, h2, h3⟩ := h
  simp only [PVal.pushBytes] at h2
  cases h2
  exact h3

theorem string_holds {D : Dialect} {S : Tables} {d : Bytes} {o : Nat} {s : String}
    (h : At d o (strObj (Builder.strBytes s))) (ho : o % 4 = 0) (h4 : d.length % 4 = 0) (hl : d.length < 2 ^ 31) :
    Holds D S d .string (.str s) (d.length - o) := by
  have hb := BytesAt.of_at h
  have hin := hb.inside
  unfold strObj at hb
  obtain ⟨h1, h2⟩ := hb.split
  have hsz : (Builder.strBytes s).length = s.toUTF8.size := Array.length_toList
  simp only [strObj, List.length_append, leBytes_length] at hin
  rw [leBytes_length] at h2
  refine .string (mod_sub h4 ho) (.of_bytes (by rw [← hsz]; exact h1) (by rw [← hsz]; omega)) h2

theorem vec_pos {m : Mode} {d : Bytes} {o : Nat} {p : PTy} {items : List (PVal p)} (h : VecAt m d o items) {i : Nat}
    (hi : i < items.length) : o ≤ d.length ∧ 4 + p.size * i + p.size ≤ o ∧
      d.length - (o - 4 - p.size * i) = d.length - o + 4 + p.size * i := by
  have h1 := h.1.le
  have h2 := h.2.1
  have hmul : p.size * (i + 1) ≤ p.size * items.length := Nat.mul_le_mul_left _ (by omega)
  rw [Nat.mul_add, Nat.mul_one] at hmul
  exact ⟨h1, by omega, by omega⟩

theorem vec_head {m : Mode} {d : Bytes} {o : Nat} {p : PTy} {items : List (PVal p)} (h : VecAt m d o items)
    (hl : d.length < 2 ^ 31) : NumAt d (d.length - o) 4 items.length := by
  have h1 := h.1.le
  have h2 := h.2.1
  have h3 : items.length ≤ p.size * items.length := Nat.le_mul_of_pos_left _ p.size_pos
  exact .of_at h.1 (by omega)

theorem vec_align {l o w : Nat} (h : (o - 4) % w = 0) (hw : l % w = 0) (h4 : 4 ≤ o) (ho : o ≤ l) : (l - o + 4) % w = 0 := by
  rw [show l - o + 4 = l - (o - 4) by omega]
  exact mod_sub hw h

theorem scalars_hold {m : Mode} {D : Dialect} {S : Tables} {d : Bytes} {o : Nat} {t : Ast.Builtin}
    {items : List (SVal (builtinSTy t))} (h : VecAt m d o (p := .sc (builtinSTy t)) items) (ho : o % 4 = 0)
    (hw : (o - 4) % (builtinSTy t).size = 0) (h4 : d.length % 4 = 0) (hd : d.length % (builtinSTy t).size = 0)
    (hl : d.length < 2 ^ 31) :
    Holds D S d (.array (.builtin t)) (.vec (items.map fun x => .bits x.val)) (d.length - o) := by
  have h1 := h.1.le
  have h2 := h.2.1
  have := Holds.scalars (D := D) (S := S) (buf := d) (t := t) (xs := items.map (·.val)) (loc := d.length - o)
    (mod_sub h4 ho) (by rw [width_eq]; exact vec_align hw hd (by omega) h1) (by rw [List.length_map]; exact vec_head h hl) (by
      intro i hi
      simp only [List.length_map] at hi
      obtain ⟨p1, p2, p3⟩ := vec_pos h hi
      have hp := ScalarAt.of_val (scalar_at (h.2.2 i hi))
      rw [p3] at hp
      simp only [List.getElem_map]
      rw [width_eq]
      exact hp)
  simpa [Function.comp_def] using this

theorem enums_hold {m : Mode} {D : Dialect} {S : Tables} {d : Bytes} {o : Nat} {id : QIdent} {vs : List Ir.EnumVariant}
    {base : Ir.EnumBase} {vals : List (SVal (enumBaseSTy base))} (hv : enumValues (enumBaseSTy base) vs = some vals)
    (hD : D.numbers vs = generated.numbers vs) {items : List (Fin vals.length)}
    (h : VecAt m d o (p := .sc (enumBaseSTy base)) (items.map vals.get)) (ho : o % 4 = 0)
    (hw : (o - 4) % (enumBaseSTy base).size = 0) (h4 : d.length % 4 = 0) (hd : d.length % (enumBaseSTy base).size = 0)
    (hl : d.length < 2 ^ 31) :
    Holds D S d (.array (.enum id vs base)) (.vec (items.map fun x => .variant x.val)) (d.length - o) := by
  have h1 := h.1.le
  have h2 := h.2.1
  have := Holds.enums (D := D) (S := S) (buf := d) (id := id) (vs := vs) (base := base) (xs := items.map (·.val))
    (loc := d.length - o)
    (mod_sub h4 ho) (by rw [baseWidth_eq]; exact vec_align hw hd (by omega) h1) (by
      have e : (items.map vals.get).length = items.length := List.length_map _
      rw [List.length_map, ← e]; exact vec_head h hl) (by
      intro i hi
      simp only [List.length_map] at hi
      have hi' : i < (items.map vals.get).length := by simpa using hi
      obtain ⟨p1, p2, p3⟩ := vec_pos h hi'
      have hat := scalar_at (h.2.2 i hi')
      have e : (items.map vals.get)[i] = vals[(items[i]).val] := by simp
      have hp := VariantAt.of_val (D := D) hv hD (items[i]).isLt (by rw [← e]; exact hat)
      rw [p3] at hp
      simp only [List.getElem_map]
      rw [baseWidth_eq]
      exact hp)
  simpa [Function.comp_def] using this

/-- Vectors of offsets. -/
theorem offsets_hold {m : Mode} {D : Dialect} {S : Tables} {d : Bytes} {o base : Nat} {t : Ir.Ty}
    {items : List (Fin (2 ^ 32))} {xs : List Val} (ht : IsRef t) (h : VecAt m d o (p := .off) items) (ho : o % 4 = 0)
    (h4 : d.length % 4 = 0) (hl : d.length < 2 ^ 31) (hb : base + 4 + 4 * items.length ≤ o)
    (hn : xs.length = items.length) (hx : ∀ i (hi : i < xs.length), (items[i]'(hn ▸ hi)).val ≤ base ∧
      Holds D S d t xs[i] (d.length - (items[i]'(hn ▸ hi)).val)) :
    Holds D S d (.array t) (.vec xs) (d.length - o) := by
  have key : ∀ i (hi : i < items.length), OffsetAt d (d.length - o + 4 + 4 * i) (o - 4 - 4 * i - items[i].val) ∧
      d.length - o + 4 + 4 * i + (o - 4 - 4 * i - items[i].val) = d.length - items[i].val := by
    intro i hi
    obtain ⟨p1, p2, p3⟩ := vec_pos h hi
    have h5 := (hx i (hn ▸ hi)).1
    have hsz : PTy.off.size = 4 := rfl
    have hp := h.2.2 i hi
    rw [hsz] at p2 p3 hp
    have := offset_at hp (show items[i].val < _ by omega) hl
    rw [p3] at this
    exact this
  refine .offsets (os := List.ofFn fun i : Fin items.length => o - 4 - 4 * i.val - items[i].val) ht (mod_sub h4 ho)
    (by rw [hn]; exact vec_head h hl) (by simp [hn]) ?_ ?_
  · intro i hi
    simp only [List.length_ofFn] at hi
    simp only [List.getElem_ofFn]
    exact (key i hi).1
  · intro i q x h1 h2
    obtain ⟨h3, rfl⟩ := List.getElem?_eq_some_iff.mp h1
    obtain ⟨h5, rfl⟩ := List.getElem?_eq_some_iff.mp h2
    simp only [List.length_ofFn] at h3
    simp only [List.getElem_ofFn]
    rw [show d.length - o + 4 + 4 * i + (o - 4 - 4 * i - items[(⟨i, h3⟩ : Fin items.length)].val) =
      d.length - items[i].val from (key i h3).2]
    exact (hx i h5).2

/-! ### Tables -/

theorem entry_at {buf vt : Bytes} {u i e : Nat} (h : At buf u vt) (hf : VtFmt vt)
    (he : e = if 4 + 2 * i < vt.length then leNat (two vt (4 + 2 * i)) else 0) :
    EntryAt buf (buf.length - u) vt.length i e := by
  unfold EntryAt
  have h1 := h.le
  have h2 := h.len_le
  have h3 := hf.even
  split
  · rename_i hc
    rw [if_pos hc] at he
    have h4 := h.two_at (o := 4 + 2 * i) (by omega)
    obtain ⟨h5, h6⟩ := leBytes_two (two_length (bs := vt) (o := 4 + 2 * i) (by omega))
    rw [h5] at h4
    have := NumAt.of_at h4 (by omega)
    rw [he]
    rw [show buf.length - (u - (4 + 2 * i)) = buf.length - u + 4 + 2 * i by omega] at this
    exact this
  · rename_i hc
    rw [if_neg hc] at he
    exact he

theorem _root_.Butte.TblIn.header {m : Mode} {d : Bytes} {obj base u : Nat} {vt : Bytes} {flds : List Fld}
    (h : TblIn m d obj base u vt flds) (h4 : d.length % 4 = 0) (hu : u % 2 = 0) (ho : obj % 4 = 0) :
    Header d (d.length - obj) (d.length - u) vt.length (obj - base) := by
  have h1 := h.soff.le
  have h2 := h.at_.le
  have h3 := h.at_.len_le
  have h5 := h.fmt.len4
  have h6 := h.room
  have hsz := h.size
  refine ⟨mod_sub h4 ho, ?_, mod_sub (by omega) hu, ?_, h.fmt.even, h5, by omega, ?_, by omega, by omega⟩
  · unfold IntAt
    rw [show (((d.length - obj : Nat) : Int) - (d.length - u : Nat)) = (u : Int) - obj by omega]
    exact .of_at h.soff (by
      have := Int.emod_lt_of_pos ((u : Int) - obj) (show (0 : Int) < 2 ^ (8 * 4) by decide)
      have := Int.emod_nonneg ((u : Int) - obj) (show ((2 : Int) ^ (8 * 4)) ≠ 0 by decide)
      omega)
  · have := h.at_.two_at (o := 0) (by omega)
    rw [h.fmt.hdr] at this
    exact .of_at this (by have := h.fmt.lt; omega)
  · have h7 := h.at_.two_at (o := 2) (by omega)
    obtain ⟨h8, h9⟩ := leBytes_two (two_length (bs := vt) (o := 2) (by omega))
    rw [h8, hsz] at h7
    have := NumAt.of_at h7 (by omega)
    rwa [show d.length - (u - 2) = d.length - u + 2 by omega] at this

/-- A stored field. -/
theorem _root_.Butte.TblIn.inline {m : Mode} {d : Bytes} {obj base u : Nat} {vt : Bytes} {flds : List Fld}
    (h : TblIn m d obj base u vt flds) {f : Fld} (hf : f ∈ flds) {i : Nat} (hi : f.slot = 4 + 2 * i)
    (hal : d.length % f.p.size = 0) : ∃ off e, EntryAt d (d.length - u) vt.length i e ∧ PAt m d off f.x ∧ base < off ∧
      Inline (d.length - obj) (obj - base) e f.p.size ∧ d.length - obj + e = d.length - off := by
  have h1 := h.soff.le
  have hp := f.p.size_pos
  obtain ⟨k1, k2, off, k3, k4, k5, k6, k7⟩ := h.stored f hf
  refine ⟨off, obj - off, entry_at h.at_ h.fmt ?_, k3, by omega, ⟨by omega, by omega, ?_⟩, by omega⟩
  · rw [hi] at k2 k6
    rw [if_pos k2, k6]
  · rw [show d.length - obj + (obj - off) = d.length - off by omega]
    exact mod_sub hal k7

/-- A field that is not stored. -/
theorem _root_.Butte.TblIn.missing {m : Mode} {d : Bytes} {obj base u : Nat} {vt : Bytes} {flds : List Fld}
    (h : TblIn m d obj base u vt flds) {i : Nat} (hi : ∀ f ∈ flds, f.slot ≠ 4 + 2 * i) :
    EntryAt d (d.length - u) vt.length i 0 := by
  refine entry_at h.at_ h.fmt ?_
  split
  · rename_i hc
    refine (h.others _ (by omega) (by omega) ?_ hc).symm
    intro hm
    obtain ⟨f, hf, e⟩ := List.mem_map.mp hm
    exact hi f hf e
  · rfl

theorem kind_scalar_of {ty : Ir.Ty} {d : Option Ast.DefaultValue} {t : STy} {d' : Option (SVal t)}
    (h : kindOf ty d = some (.scalar t d')) : ∃ b, ty = .builtin b ∧ t = builtinSTy b ∧ (d' ≠ none → d ≠ none) := by
  cases ty with
  | builtin b =>
    cases d with
    | none => cases h; exact ⟨b, rfl, rfl, fun h => absurd rfl h⟩
    | some d =>
      cases d with
      | ident i => cases h
      | scalar s =>
        simp only [kindOf, Option.bind_eq_bind, Option.bind_eq_some_iff] at h
        obtain ⟨_, _, h⟩ := h
        cases h
        exact ⟨b, rfl, rfl, by simp⟩
  | enum id vs b =>
    obtain ⟨_, _, h, _⟩ := Gen.kindOf_enum h
    cases h
  | union id e uvs =>
    obtain ⟨-, _, -, h⟩ := Gen.kindOf_union_iff.mp h
    cases h
  | struct id fs => cases d <;> cases h
  | string => cases d <;> cases h
  | array t =>
    cases d with
    | none =>
      simp only [kindOf, Option.bind_eq_bind, Option.bind_eq_some_iff] at h
      obtain ⟨_, _, h⟩ := h
      cases h
    | some d => cases h
  | table q => cases d <;> cases h

theorem kind_ref_of {ty : Ir.Ty} {d : Option Ast.DefaultValue} {F : FTy} (h : kindOf ty d = some (.ref F)) : IsRef ty := by
  have := Gen.below_ref h (.bits 0)
  cases ty with
  | builtin b => cases this
  | enum id vs b => cases this
  | union id e uvs => simp [below] at this
  | struct id fs => cases this
  | string => exact .string
  | array t => exact .array t
  | table q => exact .table q

theorem isRef_pointee {ty : Ir.Ty} (h : IsRef ty) (tag : Option Nat) : pointee tag ty = some ty := by
  cases h <;> rfl

theorem isRef_match {ty : Ir.Ty} : IsRef ty → match ty with | .builtin _ | .enum .. => False | _ => True := by
  intro h
  cases h <;> trivial

theorem isRef_none {ty : Ir.Ty} (h : IsRef ty) : below ty none = none := by
  cases h <;> rfl

/-- What a field that was given argument `a` looks like. -/
theorem field_holds {m : Mode} {D : Dialect} {S : Tables} {d : Bytes} {obj base u : Nat} {vt : Bytes} {flds : List Fld}
    (hT : TblIn m d obj base u vt flds) (hl : d.length < 2 ^ 31) (hal : ∀ f ∈ flds, d.length % f.p.size = 0)
    {f : Ir.Field} {i : Nat} {s : Fin 65536} (hi : s.val = 4 + 2 * i) (tag : Option Nat) (w : Val)
    (hnum : SameNumbers D f.ty)
    (habs : (f.default ≠ none ∨ match f.ty with | .builtin _ | .enum .. => False | _ => True) →
      D.absent f = generated.absent f) (k : Kind) (req : Bool) (a : k.Arg req) (hk : kindOf f.ty f.default = some k)
    (hok : k.Ok) (hst : ∀ x, Gen.storedFld s k req a = some x → x ∈ flds)
    (hns : Gen.storedFld s k req a = none → ∀ x ∈ flds, x.slot ≠ s.val)
    (hw : ∀ (x : Fin (2 ^ 32)) ty, k.offset? req a = some x → pointee tag f.ty = some ty → IsRef ty ∧ x.val ≤ base ∧
      ∃ w', Same w w' ∧ Holds D S d ty w' (d.length - x.val))
    (htag : ∀ vs, k = .union vs → ∀ n, tag = some n → n ≤ vs.length) :
    ∃ (e o : Nat) (y : Option Val), EntryAt d (d.length - u) vt.length i e ∧
      FieldAt D d (d.length - obj) (obj - base) tag f e o y ∧ SameField (k.value tag w req a) y ∧
      (∀ ty v, below f.ty y = some (ty, v) → Holds D S d ty v (d.length - obj + e + o)) ∧
      ∀ j, k.variant? req a = some j → y = some (.variant j) := by
  have habs' : (f.default ≠ none ∨ match f.ty with | .builtin _ | .enum .. => False | _ => True) →
      D.absent f = k.absent := fun h => (habs h).trans (absent_eq hk)
  have scalar : ∀ (t : STy) (d' : Option (SVal t)) (req : Bool) (a : SVal t), kindOf f.ty f.default = some (.scalar t d') →
      (⟨s, .sc t, a⟩ : Fld) ∈ flds → ∃ (e o : Nat) (y : Option Val), EntryAt d (d.length - u) vt.length i e ∧
      FieldAt D d (d.length - obj) (obj - base) tag f e o y ∧ SameField (some (.bits a.val)) y ∧
      (∀ ty v, below f.ty y = some (ty, v) → Holds D S d ty v (d.length - obj + e + o)) := by
    intro t d' req a hk hm
    obtain ⟨b, h1, rfl, -⟩ := kind_scalar_of hk
    obtain ⟨off, e, q1, q2, q3, q4, q5⟩ := hT.inline hm hi (hal _ hm)
    refine ⟨e, 0, some (.bits a.val), q1, .scalar h1 (by rw [width_eq]; exact q4) ?_, .some (.bits _), ?_⟩
    · rw [q5]; exact ScalarAt.of_val (scalar_at q2)
    · intro ty v hb
      rw [h1] at hb; cases hb
  have enum : ∀ (t : STy) (vals : List (SVal t)) (d' : Option (Fin vals.length)) (a : Fin vals.length),
      kindOf f.ty f.default = some (.enum t vals d') →
      (⟨s, .sc t, vals.get a⟩ : Fld) ∈ flds → ∃ (e o : Nat) (y : Option Val), EntryAt d (d.length - u) vt.length i e ∧
      FieldAt D d (d.length - obj) (obj - base) tag f e o y ∧ SameField (some (.variant a.val)) y ∧
      (∀ ty v, below f.ty y = some (ty, v) → Holds D S d ty v (d.length - obj + e + o)) ∧
      ∀ j, some a.val = some j → y = some (.variant j) := by
    intro t vals d' a hk hm
    obtain ⟨id, vs, b, h1⟩ := kind_enum_of hk
    rw [h1] at hk hnum
    obtain ⟨xs, d'', h2, h3, -⟩ := Gen.kindOf_enum hk
    cases h2
    cases hnum with
    | enum hnum =>
      obtain ⟨off, e, q1, q2, q3, q4, q5⟩ := hT.inline hm hi (hal _ hm)
      refine ⟨e, 0, some (.variant a.val), q1, .enum h1 (by rw [baseWidth_eq]; exact q4) ?_, .some (.variant _), ?_, ?_⟩
      · rw [q5]; exact VariantAt.of_val h3 hnum a.isLt (scalar_at q2)
      · intro ty v hb
        rw [h1] at hb; cases hb
      · intro j hj; cases hj; rfl
  have ref : ∀ (F : FTy) (x : Fin (2 ^ 32)), kindOf f.ty f.default = some (.ref F) → (⟨s, .off, x⟩ : Fld) ∈ flds →
      (∀ ty, pointee tag f.ty = some ty → IsRef ty ∧ x.val ≤ base ∧
        ∃ w', Same w w' ∧ Holds D S d ty w' (d.length - x.val)) →
      ∃ (e o : Nat) (y : Option Val), EntryAt d (d.length - u) vt.length i e ∧
      FieldAt D d (d.length - obj) (obj - base) tag f e o y ∧ SameField (some w) y ∧
      (∀ ty v, below f.ty y = some (ty, v) → Holds D S d ty v (d.length - obj + e + o)) := by
    intro F x hk hm hw
    have hr := kind_ref_of hk
    obtain ⟨-, h2, w', h3, h4⟩ := hw f.ty (isRef_pointee hr _)
    obtain ⟨off, e, q1, q2, q3, q4, q5⟩ := hT.inline hm hi (hal _ hm)
    obtain ⟨o1, o2⟩ := offset_at q2 (show x.val < off by omega) hl
    refine ⟨e, off - x.val, some w', q1, .ref hr q4 (by rw [q5]; exact o1), .some h3, ?_⟩
    intro ty v hb
    rw [isRef_below hr] at hb
    cases hb
    rw [q5]
    exact o2 ▸ h4
  have union : ∀ (vs : List FTy) (x : Fin (2 ^ 32)), kindOf f.ty f.default = some (.union vs) → (⟨s, .off, x⟩ : Fld) ∈ flds →
      (∀ ty, pointee tag f.ty = some ty → IsRef ty ∧ x.val ≤ base ∧
        ∃ w', Same w w' ∧ Holds D S d ty w' (d.length - x.val)) → (∀ n, tag = some n → n ≤ vs.length) →
      ∃ (e o : Nat) (y : Option Val), EntryAt d (d.length - u) vt.length i e ∧
      FieldAt D d (d.length - obj) (obj - base) tag f e o y ∧ SameField (tagged tag w) y ∧
      (∀ ty v, below f.ty y = some (ty, v) → Holds D S d ty v (d.length - obj + e + o)) := by
    intro vs x hk hm hw htag
    obtain ⟨id, en, uvs, h1, -, h2⟩ := Gen.kindOf_union hk
    have hlen : uvs.length = vs.length := (Gen.mapM_length h2).symm
    obtain ⟨off, e, q1, q2, q3, q4, q5⟩ := hT.inline hm hi (hal _ hm)
    match tag, hw, htag with
    | none, hw, htag =>
      refine ⟨e, 0, none, q1, .unionNone h1 (.inl rfl) q4, .none, ?_⟩
      intro ty v hb
      rw [h1] at hb; cases hb
    | some 0, hw, htag =>
      refine ⟨e, 0, none, q1, .unionNone h1 (.inr rfl) q4, .none, ?_⟩
      intro ty v hb
      rw [h1] at hb; cases hb
    | some (j + 1), hw, htag =>
      have hj : j < uvs.length := by have := htag _ rfl; omega
      have hu : uvs[j]? = some uvs[j] := List.getElem?_eq_getElem hj
      obtain ⟨h3, h4, w', h5, h6⟩ := hw uvs[j].ty (by rw [h1]; simp [pointee, hu])
      obtain ⟨o1, o2⟩ := offset_at q2 (show x.val < off by omega) hl
      refine ⟨e, off - x.val, some (.union j w'), q1, .union h1 rfl hu h3 q4 (by rw [q5]; exact o1),
        .some (.union j h5), ?_⟩
      intro ty v hb
      rw [h1] at hb
      simp only [below, hu, Option.map_some, Option.some.injEq, Prod.mk.injEq] at hb
      obtain ⟨rfl, rfl⟩ := hb
      rw [q5]
      exact o2 ▸ h6
  revert hk hok hst hns hw htag habs'
  revert a req k
  refine Gen.field_cases ?_ ?_ ?_ ?_ ?_ ?_ ?_ ?_ ?_ ?_
  · intro t req a hk _ hst _ _ _ _
    obtain ⟨e, o, y, h1, h2, h3, h4⟩ := scalar t none req a hk (hst _ rfl)
    exact ⟨e, o, y, h1, h2, h3, h4, nofun⟩
  · intro t d' req a hk _ hst hns _ _ habs'
    simp only [Gen.storedFld] at hst hns
    cases he : PVal.eqv (p := .sc t) a d' with
    | false =>
      obtain ⟨e, o, y, h1, h2, h3, h4⟩ := scalar t (some d') req a hk (hst _ (by rw [he]; rfl))
      exact ⟨e, o, y, h1, h2, h3, h4, nofun⟩
    | true =>
      obtain ⟨b, h1, -, h2⟩ := kind_scalar_of hk
      refine ⟨0, 0, D.absent f, hT.missing (by rw [← hi]; exact hns (by rw [he]; rfl)), .absent rfl, ?_, ?_, nofun⟩
      · rw [habs' (.inl (h2 (by simp)))]
        rcases Gen.zeros_of (t := t) (x := a) (d := d') he with rfl | hz
        · exact .some (.bits _)
        · exact .zero hz
      · intro ty v hb
        rw [h1] at hb; cases hb
  · intro t vals req a hk _ hst _ _ _ _
    exact enum t vals none a hk (hst _ rfl)
  · intro t vals d' req a hk hok hst hns _ _ habs'
    simp only [Gen.storedFld] at hst hns
    cases he : PVal.eqv (p := .sc t) (vals.get a) (vals.get d') with
    | false => exact enum t vals (some d') a hk (hst _ (by rw [he]; rfl))
    | true =>
      have : a = d' := by
        have h1 := Gen.eqv_int hok.2 he
        exact Fin.ext ((List.getElem_inj (i := a.val) (j := d'.val) (h₀ := a.isLt) (h₁ := d'.isLt) hok.1.1).mp h1)
      subst this
      obtain ⟨id, vs, b, h1⟩ := kind_enum_of hk
      have hd : f.default ≠ none := by
        rw [h1] at hk
        obtain ⟨xs, d'', h2, -, -, h4⟩ := Gen.kindOf_enum hk
        intro h
        have := h4.mpr h
        subst this
        cases h2
      refine ⟨0, 0, D.absent f, hT.missing (by rw [← hi]; exact hns (by rw [he]; rfl)), .absent rfl, ?_, ?_, ?_⟩
      · rw [habs' (.inl hd)]
        exact .some (.variant _)
      · intro ty v hb
        rw [h1] at hb; cases hb
      · intro j hj
        cases hj
        rw [habs' (.inl hd)]
        rfl
  · intro F x hk _ hst _ hw _ _
    obtain ⟨e, o, y, h1, h2, h3, h4⟩ := ref F x hk (hst _ rfl) (fun ty => hw x ty rfl)
    exact ⟨e, o, y, h1, h2, h3, h4, nofun⟩
  · intro F x hk _ hst _ hw _ _
    obtain ⟨e, o, y, h1, h2, h3, h4⟩ := ref F x hk (hst _ rfl) (fun ty => hw x ty rfl)
    exact ⟨e, o, y, h1, h2, h3, h4, nofun⟩
  · intro F hk _ _ hns _ _ habs'
    have hr := kind_ref_of hk
    have ha := habs' (.inr (isRef_match hr))
    refine ⟨0, 0, D.absent f, hT.missing (by rw [← hi]; exact hns rfl), .absent rfl, ?_, ?_, nofun⟩
    · rw [ha]; exact .none
    · intro ty v hb
      rw [ha, show Kind.absent (.ref F) = none from rfl, isRef_none hr] at hb
      cases hb
  · intro vs x hk _ hst _ hw htag _
    obtain ⟨e, o, y, h1, h2, h3, h4⟩ := union vs x hk (hst _ rfl) (fun ty => hw x ty rfl) (htag vs rfl)
    exact ⟨e, o, y, h1, h2, h3, h4, nofun⟩
  · intro vs x hk _ hst _ hw htag _
    obtain ⟨e, o, y, h1, h2, h3, h4⟩ := union vs x hk (hst _ rfl) (fun ty => hw x ty rfl) (htag vs rfl)
    exact ⟨e, o, y, h1, h2, h3, h4, nofun⟩
  · intro vs hk _ _ hns _ _ habs'
    obtain ⟨id, en, uvs, h1, -, -⟩ := Gen.kindOf_union hk
    have ha := habs' (.inr (by rw [h1]; trivial))
    refine ⟨0, 0, D.absent f, hT.missing (by rw [← hi]; exact hns rfl), .absent rfl, ?_, ?_, nofun⟩
    · rw [ha]; exact .none
    · intro ty v hb
      rw [ha, h1] at hb; cases hb

theorem written_ref {gm m : Mode} {S : Tables} {b : Builder} {ty : Ir.Ty} {v : Val} {o : Nat}
    (h : Gen.Written gm m S b ty v o) : IsRef ty := by
  induction h with
  | keep _ _ _ ih => exact ih
  | string => exact .string
  | scalars | enums | strings | offsets => exact .array _
  | table => exact .table _

theorem FieldAt.sel {D : Dialect} {buf : Bytes} {loc tsize e o : Nat} {sel : Option Nat} {f : Ir.Field} {x : Option Val}
    (h : FieldAt D buf loc tsize sel f e o x) {sel' : Option Nat} (hs : ∀ id en uvs, f.ty = .union id en uvs → sel' = sel) :
    FieldAt D buf loc tsize sel' f e o x := by
  cases h with
  | absent h => exact .absent h
  | scalar h1 h2 h3 => exact .scalar h1 h2 h3
  | enum h1 h2 h3 => exact .enum h1 h2 h3
  | ref h1 h2 h3 => exact .ref h1 h2 h3
  | union h1 h2 h3 h4 h5 h6 => exact .union h1 ((hs _ _ _ h1).trans h2) h3 h4 h5 h6
  | unionNone h1 h2 h3 => rw [hs _ _ _ h1]; exact .unionNone h1 h2 h3

theorem _root_.Butte.BuildsTable.tblIn {m : Mode} {b b' : Builder} {body : List Op} {obj : Nat} (hi : Idle m b)
    (h : BuildsTable m b body obj b') (hs : b'.usedSpace < 2 ^ 32)
    (hev : ∀ a, R b a → ∀ r ∈ a.vtables, r % 2 = 0) :
    ∃ a a', R b a ∧ R b' a' ∧ obj ≤ a'.data.length ∧ 4 ≤ a'.minAlign ∧
      (∀ f ∈ body.filterMap Op.stored, f.p.size ≤ a'.minAlign) ∧
      ∃ vt u, TblIn m a'.data obj a.data.length u vt (body.filterMap Op.stored) ∧ u % 2 = 0 ∧ obj % 4 = 0 := by
  obtain ⟨a, hr, hfl⟩ := hi.toR
  obtain ⟨⟨tail, b₁, b₂, rets, e1, e2, e3⟩, hb, hso, hnd, hfit⟩ := h
  obtain ⟨a₁, f1, r1⟩ := hr.step e1
  obtain ⟨a₂, f2, r2⟩ := run_fwd body r1 e2
  obtain ⟨a₃, f3, r3⟩ := r2.step e3
  simp only [stepA] at f1 f3
  have hs' : a₃.data.length < 2 ^ 32 := by rw [← r3.used]; exact hs
  obtain ⟨-, -, -, k1, -, -, -, -, k2, k3, k4, -⟩ := table_spec hfl hr.vtOk (withRetA_some f1) f2 (withRetA_some f3) hb hso hnd
    (by rw [← hr.used]; exact hfit) hs'
  obtain ⟨vt, u, t1, t2, t3⟩ := table_in hfl hr.vtOk (withRetA_some f1) f2 (withRetA_some f3) hb hso hnd k4 hs'
  exact ⟨a, a₃, hr, r3, k1, k2, k3, vt, u, t1, t2 (hev a hr), t3⟩

theorem SameNumbers.pointee {D : Dialect} {ty ty' : Ir.Ty} {tag : Option Nat} (h : SameNumbers D ty)
    (e : Gen.pointee tag ty = some ty') : SameNumbers D ty' := by
  unfold Gen.pointee at e
  split at e
  · split at e
    · simp only [Option.map_eq_some_iff] at e
      obtain ⟨u, hu, rfl⟩ := e
      cases h with
      | union h => exact h u (List.mem_of_getElem? hu)
    · cases e
  · cases e; exact h

theorem sameField_none {x : Option Val} {y : Option Val} (h : SameField x y) (hx : x ≠ none) : y ≠ none := by
  cases h with
  | none => exact absurd rfl hx
  | some => nofun
  | zero => nofun

/-- What is written is in the format, once the message is finished. -/
theorem written_holds {gm m : Mode} {D : Dialect} {S : Tables} (hD : Numbered D S) (hA : SameDefaults D S) {b : Builder}
    {ty : Ir.Ty} {v : Val} {o : Nat} (h : Gen.Written gm m S b ty v o) : SameNumbers D ty → ∀ d, Closes m b d →
    o ≤ b.usedSpace ∧ 4 ≤ b.minAlign ∧ ∃ v', Same v v' ∧ Holds D S d ty v' (d.length - o) := by
  induction h with
  | @keep b b' ty v o ops rets h e hr ih =>
    intro hn d hc
    obtain ⟨h1, hm4, h2⟩ := ih hn d (hc.before e hr)
    obtain ⟨⟨rest, rets', b₁, z, e1, h4, h5, -⟩, hl⟩ := hc
    have hb' := h.reachable.run e
    obtain ⟨a, ra⟩ := hb'.toR
    have hd : b'.usedSpace ≤ d.length := by
      obtain ⟨a₁, f, r1⟩ := run_fwd rest ra e1
      rw [r1.unfinished] at h5
      have hl1 : a₁.data.length ≤ d.length := by rw [h5]; simp
      have := (runA_ext f h4 (by simp only; omega)).len
      rw [ra.used]
      simp only at this
      omega
    have := Gen.used_mono h.reachable e hr (by omega)
    obtain ⟨a0, ra0⟩ := h.reachable.toR
    obtain ⟨a', fa, ra'⟩ := run_fwd ops ra0 e
    have hm := (runA_MA fa hr).1
    simp only at hm
    refine ⟨by omega, ?_, h2⟩
    rw [ra'.minAlign]; rw [ra0.minAlign] at hm4; omega
  | @string b b' s o hb e =>
    intro _ d hc
    obtain ⟨a, hr⟩ := hb.toR
    obtain ⟨a', f, r'⟩ := hr.step e
    obtain ⟨⟨z, hz⟩, hal, -⟩ := hc.view r'
    have hl := hc.small
    have hl' : a'.data.length ≤ d.length := by rw [hz]; simp
    obtain ⟨h1, h2, h3, h4⟩ := createString_spec (withRetA_some f) (by omega)
    have hma : 4 ≤ a'.minAlign := by rw [h4]; simp only; omega
    refine ⟨Nat.le_of_eq (r'.used.trans h1.symm).symm, by rw [r'.minAlign]; omega, _, .str _, string_holds ?_ h2 (hal 4 four_maOk (by omega) hma) hl⟩
    rw [hz]; exact h3.prepend z
  | @scalars b b' t items o hb e =>
    intro _ d hc
    obtain ⟨a, hr⟩ := hb.toR
    obtain ⟨a', f, r'⟩ := hr.step e
    obtain ⟨⟨z, hz⟩, hal, -⟩ := hc.view r'
    have hl := hc.small
    have hl' : a'.data.length ≤ d.length := by rw [hz]; simp
    obtain ⟨h1, h2, h3, h4, -, -, h5⟩ := createVector_spec (withRetA_some f) (by omega)
    have hma : max (PTy.sc (builtinSTy t)).size 4 ≤ a'.minAlign := by rw [h5]; simp only; omega
    refine ⟨Nat.le_of_eq (r'.used.trans h1.symm).symm, by rw [r'.minAlign]; omega, _, .vec rfl ?_, scalars_hold (m := m) ?_ h2 h3 (hal 4 four_maOk (by omega) (by omega))
      (hal _ (PTy.maOk (.sc (builtinSTy t))) (PTy.size_pos (.sc (builtinSTy t))) (Nat.le_trans (Nat.le_max_left _ _) hma)) hl⟩
    · intro i hi
      simp only [List.getElem_map]; exact .bits _
    · rw [hz]; exact h4.prepend z
  | @enums b b' id vs base vals hv items o hb e =>
    intro hn d hc
    obtain ⟨a, hr⟩ := hb.toR
    obtain ⟨a', f, r'⟩ := hr.step e
    obtain ⟨⟨z, hz⟩, hal, -⟩ := hc.view r'
    have hl := hc.small
    have hl' : a'.data.length ≤ d.length := by rw [hz]; simp
    obtain ⟨h1, h2, h3, h4, -, -, h5⟩ := createVector_spec (withRetA_some f) (by omega)
    have hma : max (PTy.sc (enumBaseSTy base)).size 4 ≤ a'.minAlign := by rw [h5]; simp only; omega
    cases hn with
    | array hn =>
    cases hn with
    | enum hn =>
    refine ⟨Nat.le_of_eq (r'.used.trans h1.symm).symm, by rw [r'.minAlign]; omega, _, .vec rfl ?_, enums_hold (m := m) hv hn ?_ h2 h3 (hal 4 four_maOk (by omega) (by omega))
      (hal _ (PTy.maOk (.sc (enumBaseSTy base))) (PTy.size_pos (.sc (enumBaseSTy base))) (Nat.le_trans (Nat.le_max_left _ _) hma)) hl⟩
    · intro i hi
      simp only [List.getElem_map]; exact .variant _
    · rw [hz]; exact h4.prepend z
  | @strings b b' xs o hb e =>
    intro _ d hc
    obtain ⟨a, hr⟩ := hb.toR
    obtain ⟨a', f, r'⟩ := hr.step e
    obtain ⟨⟨z, hz⟩, hal, -⟩ := hc.view r'
    have hl := hc.small
    have hl' : a'.data.length ≤ d.length := by rw [hz]; simp
    simp only [stepA] at f
    have f1 := withRetA_some f
    unfold ABuilder.createVectorOfStrings at f1
    obtain ⟨_, _, f1⟩ := Res.bind_eq_ok.mp f1
    obtain ⟨⟨offs, a₀⟩, f0, f1⟩ := Res.bind_eq_ok.mp f1
    simp only at f1
    obtain ⟨k1, k2, _, k4, kx, k6, k7⟩ := createVector_spec f1 (by omega)
    have hl0 := kx.len
    obtain ⟨new, n1, _, _, n4⟩ := createStrings_spec f0 (by omega)
    have hma : 4 ≤ a'.minAlign := by rw [k7]; simp only; omega
    have h4 := hal 4 four_maOk (by omega) hma
    have hlenN := n4.length_eq
    have hlo : offs.length = xs.length := by rw [n1]; simp [← hlenN]
    refine ⟨Nat.le_of_eq (r'.used.trans k1.symm).symm, by rw [r'.minAlign]; omega, _, .vec rfl ?_, offsets_hold (m := m) (items := offs) (base := a₀.data.length) .string ?_ k2
      h4 hl k6 (by rw [List.length_map]; exact hlo.symm) ?_⟩
    · intro i hi
      simp only [List.getElem_map]; exact .str _
    · rw [hz]; exact k4.prepend z
    · intro i hi
      simp only [List.length_map] at hi
      have h1 := List.forall₂_iff_get.mp n4
      have h2 := h1.2 (xs.length - 1 - i) (by simp; omega) (by rw [← hlenN]; simp; omega)
      simp only [List.get_eq_getElem, List.getElem_reverse] at h2
      have e1 : offs[i]'(by omega) = new[xs.length - 1 - i]'(by rw [← hlenN]; simp; omega) := by
        simp only [n1, List.append_nil, List.getElem_reverse]
        congr 1
        rw [← hlenN]; simp
      simp only [show xs.length - 1 - (xs.length - 1 - i) = i by omega] at h2
      rw [← e1] at h2
      obtain ⟨h5, h6, h7⟩ := h2
      refine ⟨h6, ?_⟩
      simp only [List.getElem_map]
      refine string_holds ?_ h7 h4 hl
      obtain ⟨y, hy⟩ := kx
      rw [hz, hy]
      exact (h5.prepend y).prepend z
  | @offsets b b' t F items xs o hb ht hlen hx e ih =>
    intro hn d hc
    obtain ⟨a, hr⟩ := hb.toR
    obtain ⟨a', f, r'⟩ := hr.step e
    obtain ⟨⟨z, hz⟩, hal, -⟩ := hc.view r'
    have hl := hc.small
    have hl' : a'.data.length ≤ d.length := by rw [hz]; simp
    obtain ⟨k1, k2, _, k4, kx, k6, k7⟩ := createVector_spec (withRetA_some f) (by omega)
    have hma : 4 ≤ a'.minAlign := by rw [k7]; simp only; omega
    have h4 := hal 4 four_maOk (by omega) hma
    have hc' := hc.step e rfl
    have hn' : SameNumbers D t := by cases hn with | array h => exact h
    have key : ∀ i (hi : i < xs.length), ∃ v', Same xs[i] v' ∧ (items[i]'(hlen ▸ hi)).val ≤ a.data.length ∧
        Holds D S d t v' (d.length - (items[i]'(hlen ▸ hi)).val) := by
      intro i hi
      obtain ⟨h1, -, v', h2, h3⟩ := ih i hi hn' d hc'
      exact ⟨v', h2, by rw [← hr.used]; exact h1, h3⟩
    have hk : ∀ i : Fin xs.length, ∃ v', Same xs[i] v' ∧ (items[i.val]'(hlen ▸ i.isLt)).val ≤ a.data.length ∧
        Holds D S d t v' (d.length - (items[i.val]'(hlen ▸ i.isLt)).val) := fun i => key i.val i.isLt
    obtain ⟨g, hg⟩ := Classical.axiomOfChoice hk
    have htr : IsRef t := by
      cases t with
      | string => exact .string
      | array t => exact .array t
      | table q => exact .table q
      | builtin => cases ht
      | enum id vs b =>
        simp only [followTy, Option.bind_eq_bind, Option.bind_eq_some_iff] at ht
        obtain ⟨_, _, ht⟩ := ht
        cases ht
      | union => cases ht
      | struct => cases ht
    refine ⟨Nat.le_of_eq (r'.used.trans k1.symm).symm, by rw [r'.minAlign]; omega, .vec (List.ofFn g), .vec (by simp) ?_, offsets_hold (m := m) (items := items)
      (base := a.data.length) htr ?_ k2 h4 hl k6 (by simp [hlen]) ?_⟩
    · intro i hi
      simp only [List.getElem_ofFn]; exact (hg ⟨i, hi⟩).1
    · rw [hz]; exact k4.prepend z
    · intro i hi
      simp only [List.length_ofFn] at hi
      simp only [List.getElem_ofFn]
      exact (hg ⟨i, hi⟩).2
  | @table b b' q t gs args w o hq hc hn hi e hfit hx hreq ih =>
    intro _ d hcl
    have hg := Gen.compile_good (Gen.compileTable_fields hc) hn
    obtain ⟨ops, rets₀, e₀, hr₀⟩ := Gen.create_run e hg hfit
    have hclb := hcl.before e₀ hr₀
    have hbt := (Gen.create_builds e hg hfit).1
    have hl := hcl.small
    obtain ⟨a₀, ra₀⟩ := (hi.reachable.run e₀).toR
    have hu : b'.usedSpace < 2 ^ 32 := by
      obtain ⟨⟨z, hz⟩, -⟩ := hcl.view ra₀
      have : a₀.data.length ≤ d.length := by rw [hz]; simp
      rw [ra₀.used]; omega
    obtain ⟨a, a', ra, ra', k1, k2, k3, vt, u, hT, hu2, ho4⟩ := hbt.tblIn hi hu fun a ra => (hclb.view ra).2.2
    obtain ⟨⟨z, hz⟩, hal, -⟩ := hcl.view ra'
    have hT := hT.prepend z
    rw [← hz] at hT
    have h4 : d.length % 4 = 0 := hal 4 four_maOk (by omega) k2
    have hfs : ∀ f ∈ (Gen.bodyOps gs args).filterMap Op.stored, d.length % f.p.size = 0 := fun f hf =>
      hal _ (PTy.maOk f.p) (PTy.size_pos f.p) (k3 f hf)
    refine ⟨by rw [ra'.used]; exact k1, by rw [ra'.minAlign]; exact k2, ?_⟩
    have hsp := List.forall₂_iff_get.mp (Gen.compileFields_spec (Gen.compileTable_fields hc))
    have hslot := Gen.compileFields_slot (Gen.compileTable_fields hc) (by omega)
    have hlen : t.fields.length = gs.length := hsp.1
    have tagv : ∀ (i : Fin gs.length) (vs : List FTy), (gs.get i).kind = .union vs → ∃ (j : Fin gs.length) (n : Nat),
        (gs.get j).name = (gs.get i).name ++ c!"_type" ∧ (gs.get j).kind.variant? (gs.get j).required (args.get gs j) = some n ∧
        args.variant? gs ((gs.get i).name ++ c!"_type") = some n ∧ n ≤ vs.length := by
      intro i vs hk
      obtain ⟨j, ty, vals, d', j1, j2, j3, -⟩ := Gen.union_tag hc hk
      have hv := Gen.variant?_name (Gen.names_nodup hc) args j
      rw [j1] at hv
      have : ∃ n, (gs.get j).kind.variant? (gs.get j).required (args.get gs j) = some n ∧ n ≤ vs.length := by
        clear hv
        generalize args.get gs j = x
        generalize gs.get j = g at *
        obtain ⟨_, _, k, r⟩ := g
        simp only at j2
        subst j2
        refine ⟨_, rfl, ?_⟩
        have := (x : Fin vals.length).isLt
        omega
      obtain ⟨n, n1, n2⟩ := this
      exact ⟨j, n, j1, n1, hv.trans n1, n2⟩
    have fld : ∀ i : Fin gs.length, ∃ r : Nat × Nat × Option Val, EntryAt d (d.length - u) vt.length i.val r.1 ∧
        FieldAt D d (d.length - o) (o - a.data.length) (args.variant? gs ((gs.get i).name ++ c!"_type"))
          (t.fields.get ⟨i.val, hlen.symm ▸ i.isLt⟩) r.1 r.2.1 r.2.2 ∧ SameField (fieldValue gs args w i) r.2.2 ∧
        (∀ ty v, below (t.fields.get ⟨i.val, hlen.symm ▸ i.isLt⟩).ty r.2.2 = some (ty, v) →
          Holds D S d ty v (d.length - o + r.1 + r.2.1)) ∧
        ∀ j, (gs.get i).kind.variant? (gs.get i).required (args.get gs i) = some j → r.2.2 = some (.variant j) := by
      intro i
      have hit : i.val < t.fields.length := hlen.symm ▸ i.isLt
      have hc₁ := hsp.2 i.val hit i.isLt
      have hf : t.fields[i.val]? = some (t.fields.get ⟨i.val, hit⟩) := by simp [hit]
      have hmem : t.fields.get ⟨i.val, hit⟩ ∈ t.fields := List.get_mem _ _
      have hs := hslot i.val i.isLt
      rw [Nat.zero_add] at hs
      obtain ⟨e', o', y, h⟩ := field_holds (f := t.fields.get ⟨i.val, hit⟩) (i := i.val) hT hl hfs hs
        (args.variant? gs ((gs.get i).name ++ c!"_type")) (w i) (hD q t hq _ hmem) (hA q t hq _ hmem) (gs.get i).kind
        (gs.get i).required (args.get gs i) hc₁.kind (Gen.compile_kinds (Gen.compileTable_fields hc) _ (List.get_mem _ _))
        (fun x hx => Gen.stored_mem gs args i x hx) (fun h => Gen.not_stored hg args i h)
        (fun x ty h1 h2 => by
          obtain ⟨q1, -, q2⟩ := ih i x _ ty h1 hf h2 ((hD q t hq _ hmem).pointee h2) d hclb
          exact ⟨written_ref (hx i x _ ty h1 hf h2), by rw [← ra.used]; exact q1, q2⟩)
        (fun vs hk n hn => by
          obtain ⟨j, n', -, -, h3, h4⟩ := tagv i vs hk
          rw [hn] at h3
          cases h3
          exact h4)
      exact ⟨(e', o', y), h⟩
    obtain ⟨r, hr⟩ := Classical.axiomOfChoice fld
    have ofn : ∀ {α : Type} (g : Fin gs.length → α) (i : Nat) (x : α), (List.ofFn g)[i]? = some x →
        ∃ hi' : i < gs.length, x = g ⟨i, hi'⟩ := by
      intro α g i x h
      obtain ⟨h1, h2⟩ := List.getElem?_eq_some_iff.mp h
      have h1' : i < gs.length := by simpa using h1
      exact ⟨h1', by rw [← h2, List.getElem_ofFn]⟩
    have hfi : ∀ (i : Nat) (hi' : i < gs.length) f, t.fields[i]? = some f → f = t.fields.get ⟨i, hlen.symm ▸ hi'⟩ := by
      intro i hi' f h
      obtain ⟨h1, h2⟩ := List.getElem?_eq_some_iff.mp h
      exact h2.symm
    refine ⟨.table (List.ofFn fun i => (r i).2.2), .table (by simp) ?_, .table (es := List.ofFn fun i => (r i).1)
      (os := List.ofFn fun i => (r i).2.1) hq (hT.header h4 hu2 ho4) (by simp [hlen]) (by simp [hlen]) (by simp [hlen]) ?_ ?_ ?_ ?_ ?_⟩
    · intro i hi'
      simp only [List.getElem_ofFn]
      exact (hr _).2.2.1
    · intro i hi'
      simp only [List.getElem_ofFn]
      exact (hr ⟨i, by simpa using hi'⟩).1
    · intro i f e' o' x h1 h2 h3 h4
      obtain ⟨hi', rfl⟩ := ofn _ _ _ h2
      obtain ⟨_, rfl⟩ := ofn _ _ _ h3
      obtain ⟨_, rfl⟩ := ofn _ _ _ h4
      have := hfi i hi' f h1
      subst this
      refine (hr ⟨i, hi'⟩).2.1.sel ?_
      intro id en uvs hty
      have hc₁ := hsp.2 i (hlen.symm ▸ hi') hi'
      have hk : ∃ vs, (gs.get ⟨i, hi'⟩).kind = .union vs := by
        have := hc₁.kind
        rw [hty] at this
        obtain ⟨-, vs, -, this⟩ := Gen.kindOf_union_iff.mp this
        exact ⟨vs, this⟩
      obtain ⟨vs, hk⟩ := hk
      obtain ⟨j, n, j1, j2, j3, -⟩ := tagv ⟨i, hi'⟩ vs hk
      have hcj := hsp.2 j.val (hlen.symm ▸ j.isLt) j.isLt
      rw [selector_eq hc (j := j.val) (g := t.fields.get ⟨j.val, hlen.symm ▸ j.isLt⟩) (by simp)
        (by rw [← hcj.name, ← hc₁.name]; exact j1), j3]
      have : (List.ofFn fun i => (r i).2.2)[j.val]? = some (some (.variant n)) := by
        rw [List.getElem?_ofFn, dif_pos j.isLt]
        exact congrArg some ((hr j).2.2.2.2 n j2)
      rw [this]
    · intro i f x h1 h2 hreq'
      obtain ⟨hi', rfl⟩ := ofn _ _ _ h2
      have := hfi i hi' f h1
      subst this
      have hc₁ := hsp.2 i (hlen.symm ▸ hi') hi'
      exact sameField_none (hr ⟨i, hi'⟩).2.2.1 (hreq ⟨i, hi'⟩ (hc₁.required.trans hreq'))
    · intro i f e' o' x ty v h1 h2 h3 h4 hb
      obtain ⟨hi', rfl⟩ := ofn _ _ _ h2
      obtain ⟨_, rfl⟩ := ofn _ _ _ h3
      obtain ⟨_, rfl⟩ := ofn _ _ _ h4
      have := hfi i hi' f h1
      subst this
      exact (hr ⟨i, hi'⟩).2.2.2.1 ty v hb
    · intro _ i hi'
      refine hT.missing fun f hf e => ?_
      obtain ⟨j, hj⟩ := Gen.mem_stored gs args f hf
      have h1 := Gen.storedFld_slot hj
      have h2 := hslot j.val j.isLt
      have h3 := j.isLt
      have h2' : (gs.get j).slot.val = 4 + 2 * (0 + j.val) := h2
      omega

/-- The finished message. -/
theorem finished_message {gm m : Mode} {D : Dialect} {S : Tables} (hD : Numbered D S) (hA : SameDefaults D S)
    {b₁ b₂ : Builder} {q : QIdent} {v : Val} {root : Fin (2 ^ 32)} (hw : Gen.Written gm m S b₁ (.table q) v root.val)
    {ident : Option Bytes} {sp : Bool} (ef : step m b₁ (.finish root ident sp) = .ok (none, b₂))
    (hi : ∀ i, ident = some i → i.length = 4) (hs : b₂.usedSpace < 2 ^ 31) (hfr : m = .release → b₁.finished = false)
    (hev : ∀ r ∈ b₁.vtables, r % 2 = 0) : ∃ v', Same v v' ∧ Message D S sp ident q v' b₂.unfinishedData := by
  have hcl := closes_finish hw.reachable (rest := []) rfl nofun ef hi hs hfr hev
  obtain ⟨h1, h4, v', hv, hh⟩ := written_holds hD hA hw (.table q) _ hcl
  obtain ⟨a₁, r1⟩ := hw.reachable.toR
  obtain ⟨a₂, f2, r2⟩ := r1.step ef
  simp only [stepA, noRetA] at f2
  obtain ⟨a'', f3, f4⟩ := Res.bind_eq_ok.mp f2
  cases f4
  have hu := r2.used
  have hok : MAOk a₁.minAlign := by rw [← r1.minAlign]; exact hw.reachable.maOk
  obtain ⟨pad1, pad2, offb, d3, g1, g2, g3, g4, g5, -⟩ := finish_spec f3 hok hi (by omega)
  rw [r1.minAlign] at h4
  rw [g5 h4] at g1
  simp only [List.replicate_zero, List.nil_append] at g1
  rw [r2.unfinished] at hh ⊢
  rw [r1.used] at h1
  have hx := root.isLt
  have hv' : (Builder.offVal root.val).val = root.val := by
    unfold Builder.offVal
    simp only [Fin.ofNat]
    exact Nat.mod_eq_of_lt (by omega)
  have hd3 : a₁.data.length ≤ d3.length := by rw [g1]; simp; omega
  have hsz : PTy.off.size = 4 := rfl
  have hp : PAt m (offb ++ d3) (offb ++ d3).length (Builder.offVal root.val) := by
    refine ⟨by simp [g3, hsz], offb, ?_, At.head _ _⟩
    rw [← g2]; congr 1; simp [g3, hsz]
  have hlo : (offb ++ d3).length = 4 + d3.length := by simp [g3]
  have hl2 : a₂.data.length < 2 ^ 31 := by omega
  have idAt : ∀ (z : Bytes) id, ident = some id → BytesAt (z ++ (offb ++ d3)) (z.length + 4) id := by
    intro z id hid
    subst hid
    exact ⟨z ++ offb, List.replicate pad1 0 ++ a₁.data, by rw [g1]; simp, by simp [g3]⟩
  have rootAt : ∀ z : Bytes, a₂.data = z ++ (offb ++ d3) → ∃ o, OffsetAt a₂.data z.length o ∧
      z.length + o = a₂.data.length - root.val := by
    intro z hz
    have hlz : a₂.data.length = z.length + (offb ++ d3).length := by rw [hz]; simp
    have hp' := hp.prepend z
    rw [← hz] at hp'
    obtain ⟨q1, q2⟩ := offset_at hp' (by rw [hv']; omega) hl2
    rw [hv'] at q1 q2
    rw [show a₂.data.length - (offb ++ d3).length = z.length by omega] at q1
    exact ⟨_, q1, by omega⟩
  refine ⟨v', hv, ?_⟩
  cases sp with
  | false =>
    simp only [Bool.false_eq_true, if_false, List.nil_append] at g4
    refine ⟨nofun, fun id hid => ⟨hi id hid, ?_⟩, ?_⟩
    · have := idAt [] id hid
      simp only [List.nil_append, List.length_nil, Nat.zero_add] at this
      rw [g4]; exact this
    · obtain ⟨o, o1, o2⟩ := rootAt [] (by simpa using g4)
      simp only [List.length_nil, Nat.zero_add] at o1 o2
      refine ⟨o, o1, ?_⟩
      simp only [Bool.false_eq_true, if_false, Nat.zero_add, o2]
      exact hh
  | true =>
    simp only [if_true] at g4
    have hlz : a₂.data.length = 4 + (offb ++ d3).length := by rw [g4]; simp
    refine ⟨fun _ => ⟨by omega, ?_⟩, fun id hid => ⟨hi id hid, ?_⟩, ?_⟩
    · rw [hlz, Nat.add_sub_cancel_left]
      refine NumAt.of_bytes (n := 4) ?_ (by omega)
      rw [g4]
      exact ⟨[], _, rfl, rfl⟩
    · have := idAt (leBytes 4 (offb ++ d3).length) id hid
      rw [leBytes_length] at this
      rw [g4]; exact this
    · obtain ⟨o, o1, o2⟩ := rootAt _ g4
      rw [leBytes_length] at o1 o2
      refine ⟨o, o1, ?_⟩
      simp only [if_true, o2]
      exact hh

theorem _root_.Butte.Regular.even {m : Mode} {b : Builder} (h : Regular m b) : ∀ r ∈ b.vtables, r % 2 = 0 := by
  obtain ⟨cap, b0, ops, rets, h0, h1, hso, hst⟩ := h
  obtain ⟨a, f, ra⟩ := run_fwd ops (new_R h0) h1
  have hinv := runA_inv f hso nofun ⟨nofun, List.Pairwise.nil, nofun⟩ (by
    intro k rs a'' hk
    have h1' := h1
    rw [← List.take_append_drop k ops] at h1'
    obtain ⟨rs', b'', _, g1, _⟩ := run_append.mp h1'
    obtain ⟨a''', f', ra'⟩ := run_fwd _ (new_R h0) g1
    rw [hk] at f'
    injection f' with f'
    injection f' with _ f'
    subst f'
    have := hst k rs' b'' g1
    rw [ra'.used] at this
    omega)
  rw [ra.vtables]
  exact hinv.2.even

theorem sameDefaults_flatbuffers (S : Tables) : SameDefaults flatbuffers S := by
  intro q t _ f _ h
  unfold flatbuffers generated
  dsimp only
  cases hty : f.ty with
  | builtin b =>
    rw [hty] at h
    rcases h with h | h
    · cases hd : f.default with
      | none => exact absurd hd h
      | some d => cases d <;> rfl
    · cases h
  | enum id vs b =>
    rw [hty] at h
    rcases h with h | h
    · cases hd : f.default with
      | none => exact absurd hd h
      | some d => cases d <;> rfl
    · cases h
  | _ => rfl

end Butte.Format
