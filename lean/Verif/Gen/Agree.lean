import Verif.Gen.Write
/-
Writing the same tree to two builders that hold the same, for C119. Nothing here models code.
-/
namespace Butte.Gen
open Ir (QIdent)

/-- Two builders that hold the same; their buffers may be of different sizes. -/
def Alike (b c : Builder) : Prop := ∃ a, R b a ∧ R c a

/-- If both complete, the results are equal and the builders hold the same. -/
def Agree {α : Type} (r r' : Res (α × Builder)) : Prop :=
  ∀ x b x' b', r = .ok (x, b) → r' = .ok (x', b') → x = x' ∧ Alike b b'

theorem Agree.ok {α : Type} {b c : Builder} (h : Alike b c) (x : α) : Agree (.ok (x, b)) (.ok (x, c)) := by
  intro y b' y' c' e e'
  cases e; cases e'; exact ⟨rfl, h⟩

theorem Agree.panic {α : Type} (r : Res (α × Builder)) : Agree .panic r := by
  intro _ _ _ _ e; cases e

theorem Agree.bind {α β : Type} {r r' : Res (α × Builder)} {f f' : α × Builder → Res (β × Builder)} (h : Agree r r')
    (hf : ∀ x b c, Alike b c → Agree (f (x, b)) (f' (x, c))) : Agree (r >>= f) (r' >>= f') := by
  intro y b₂ y' c₂ e e'
  obtain ⟨⟨x, b⟩, e1, e2⟩ := Res.bind_eq_ok.mp e
  obtain ⟨⟨x', c⟩, e1', e2'⟩ := Res.bind_eq_ok.mp e'
  obtain ⟨rfl, hA⟩ := h x b x' c e1 e1'
  exact hf x b c hA y b₂ y' c₂ e2 e2'

theorem run_agree {m : Mode} {b c : Builder} (h : Alike b c) (ops : List Op) : Agree (run m b ops) (run m c ops) := by
  intro x b' x' c' e e'
  obtain ⟨a, h1, h2⟩ := h
  exact R.run_eq h1 h2 e e'

theorem step_agree {m : Mode} {b c : Builder} (h : Alike b c) (op : Op) : Agree (step m b op) (step m c op) := by
  intro x b' x' c' e e'
  obtain ⟨h1, h2⟩ := run_agree h [op] _ _ _ _ (run_singleton.mpr ⟨x, e, rfl⟩) (run_singleton.mpr ⟨x', e', rfl⟩)
  cases h1
  exact ⟨rfl, h2⟩

theorem offsetOf_agree {r r' : Res (Option Nat × Builder)} (h : Agree r r') : Agree (offsetOf r) (offsetOf r') := by
  intro x b x' b' e e'
  unfold offsetOf at e e'
  split at e <;> cases e
  split at e' <;> cases e'
  obtain ⟨h1, h2⟩ := h _ _ _ _ rfl rfl
  cases h1
  exact ⟨rfl, h2⟩

theorem sim_agree {α : Type} {r r' : Res (α × Builder)} {g : Res (α × ABuilder)} (h : Sim1 r g) (h' : Sim1 r' g) : Agree r r' := by
  intro x b x' b' e e'
  obtain ⟨⟨y, a⟩, f, hy, hR⟩ := h.fwd _ e
  obtain ⟨⟨y', a'⟩, f', hy', hR'⟩ := h'.fwd _ e'
  rw [f] at f'
  cases f'
  exact ⟨Eq.trans hy hy'.symm, a, hR, hR'⟩

theorem create_agree {m : Mode} {b c : Builder} (h : Alike b c) (gs : List GField) (args : Args gs) :
    Agree (create m b gs args) (create m c gs args) := by
  unfold create
  obtain ⟨a, ha, ha'⟩ := h
  refine (sim_agree (startTable_sim ha) (startTable_sim ha')).bind fun start b c h => ?_
  intro o b₂ o' c₂ e e'
  obtain ⟨b₁, e1, e2⟩ := Res.bind_eq_ok.mp e
  obtain ⟨c₁, e1', e2'⟩ := Res.bind_eq_ok.mp e'
  obtain ⟨r, f1⟩ := addFields_run.mp e1
  obtain ⟨r', f1'⟩ := addFields_run.mp e1'
  obtain ⟨-, a₁, h₁, h₁'⟩ := run_agree h _ _ _ _ _ f1 f1'
  obtain ⟨⟨p, b₃⟩, e3, e4⟩ := Res.bind_eq_ok.mp e2
  obtain ⟨⟨p', c₃⟩, e3', e4'⟩ := Res.bind_eq_ok.mp e2'
  obtain ⟨k1, k2⟩ := sim_agree (endTable_sim h₁ start) (endTable_sim h₁' start) _ _ _ _ e3 e3'
  obtain ⟨_, -, e5⟩ := Res.bind_eq_ok.mp e4
  obtain ⟨_, -, e5'⟩ := Res.bind_eq_ok.mp e4'
  cases e5; cases e5'
  exact ⟨k1, k2⟩

/-- A caller that writes the same to builders that hold the same. -/
def Steady (wr : Builder → Ir.Ty → Val → Res (Nat × Builder)) : Prop :=
  ∀ b c, Alike b c → ∀ ty v, Agree (wr b ty v) (wr c ty v)

theorem writeOffset_agree {wr : Builder → Ir.Ty → Val → Res (Nat × Builder)} (hw : Steady wr) {b c : Builder} (h : Alike b c)
    (ty : Ir.Ty) {α : Type} (v : Val) (f : Fin (2 ^ 32) → α) :
    Agree (writeField.offset wr b ty v f) (writeField.offset wr c ty v f) := by
  simp only [writeField.offset]
  split
  · refine (hw b c h _ _).bind fun o b c h => ?_
    by_cases ho : o < 2 ^ 32
    · simp only [dif_pos ho]; exact .ok h _
    · simp only [dif_neg ho]; exact .panic _
  · exact .panic _

theorem writeField_agree {wr : Builder → Ir.Ty → Val → Res (Nat × Builder)} (hw : Steady wr) {b c : Builder} (h : Alike b c)
    (ty : Ir.Ty) (k : Kind) (req : Bool) (x : Option Val) : Agree (writeField wr b ty k req x) (writeField wr c ty k req x) := by
  unfold writeField
  split <;> first
    | exact .ok h _
    | exact .panic _
    | exact writeOffset_agree hw h ty _ _
    | (split <;> first | exact .ok h _ | exact .panic _)

theorem writeFields_agree {wr : Builder → Ir.Ty → Val → Res (Nat × Builder)} (hw : Steady wr) : ∀ {b c : Builder}, Alike b c →
    ∀ (fs : List Ir.Field) (gs : List GField) (xs : List (Option Val)), Agree (writeFields wr b fs gs xs) (writeFields wr c fs gs xs)
  | b, c, h, fs, [], xs => by simp only [writeFields]; exact .ok h _
  | b, c, h, [], g :: gs, xs => by simp only [writeFields]; exact .panic _
  | b, c, h, f :: fs, g :: gs, [] => by simp only [writeFields]; exact .panic _
  | b, c, h, f :: fs, g :: gs, x :: xs => by
    simp only [writeFields]
    exact (writeField_agree hw h _ _ _ _).bind fun a b c h => (writeFields_agree hw h fs gs xs).bind fun as b c h => .ok h _

theorem writeAll_agree {wr : Builder → Val → Res (Nat × Builder)} (hw : ∀ b c, Alike b c → ∀ v, Agree (wr b v) (wr c v)) :
    ∀ (xs : List Val) {b c : Builder}, Alike b c → Agree (writeAll wr b xs) (writeAll wr c xs)
  | [], b, c, h => .ok h _
  | v :: vs, b, c, h => by
    simp only [writeAll]
    refine (hw b c h v).bind fun o b c h => ?_
    by_cases ho : o < 2 ^ 32
    · simp only [dif_pos ho]
      exact (writeAll_agree hw vs h).bind fun os b c h => .ok h _
    · simp only [dif_neg ho]; exact .panic _

theorem writeVal_agree (gm m : Mode) (S : Tables) : ∀ n, Steady (writeVal gm m S n)
  | 0 => fun b c h ty v => by simp only [writeVal]; exact .panic _
  | n + 1 => by
    have ih := writeVal_agree gm m S n
    intro b c h ty v
    have hvec : ∀ (t : Ir.Ty) xs, Agree (do
        let (os, b) ← writeAll (fun b v => writeVal gm m S n b t v) b xs
        offsetOf (step m b (.createVector .off os))) (do
        let (os, b) ← writeAll (fun b v => writeVal gm m S n b t v) c xs
        offsetOf (step m b (.createVector .off os))) := by
      intro t xs
      refine (writeAll_agree (fun b c h v => ih b c h t v) xs h).bind fun os b c h => ?_
      exact offsetOf_agree (step_agree h _)
    cases ty with
    | string =>
      cases v with
      | str s => exact offsetOf_agree (step_agree h _)
      | _ => exact .panic _
    | array t =>
      cases v with
      | vec xs =>
        cases t with
        | builtin t =>
          simp only [writeVal]
          split
          · exact offsetOf_agree (step_agree h _)
          · exact .panic _
        | enum id vs base =>
          simp only [writeVal]
          split
          · split
            · exact offsetOf_agree (step_agree h _)
            · exact .panic _
          · exact .panic _
        | _ => exact hvec _ xs
      | _ => cases t <;> exact .panic _
    | table q =>
      cases v with
      | table xs =>
        simp only [writeVal]
        split
        · exact .panic _
        · split
          · exact .panic _
          · refine (writeFields_agree ih h _ _ _).bind fun as b c h => ?_
            exact create_agree h _ _
      | _ => exact .panic _
    | _ => exact .panic _

end Butte.Gen
