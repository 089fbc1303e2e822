import Verif.Parse.Sound
/-
What is read was written: metadata, fields, declarations and schemas. The result is `schemaDecl_sound`: a text that is
accepted is a way of writing the schema returned for it.
-/
namespace Butte.Parse

open Ast

variable {α β γ : Type} [Env]

theorem follow_word {r : Str} (h : Follow r) : ∀ c, r.head? = some c → Env.word c = false := by
  obtain ⟨c, t, rfl, hc⟩ := h.delim
  intro d hd
  cases hd
  exact delim_word hc

omit [Env] in
theorem append_ne {a r : Str} (h : r ≠ []) : a ++ r ≠ [] := by
  intro e; exact h (List.append_eq_nil_iff.mp e).2

omit [Env] in
/-- White space after the last item belongs to it. -/
theorem ManyText.extend {R : α → Str → Prop} {as : List α} {t v : Str} (h : ManyText R as t) (hne : as ≠ [])
    (hv : Trivia v) : ManyText R as (t ++ v) := by
  induction h with
  | nil => exact absurd rfl hne
  | @cons a as t w ts h1 h2 h3 ih =>
    cases as with
    | nil =>
      cases h3
      have := ManyText.cons h1 (trivia_append h2 hv) (.nil (R := R))
      simpa using this
    | cons b as =>
      have := ManyText.cons h1 h2 (ih (by simp))
      simpa using this

/-! ### Metadata -/

theorem metaItem_sound (hx : HexfPrefix) :
    Sound (pair ident (opt (preceded cos0 (preceded (char ':') (preceded cos0 single))))) MetaItem := by
  intro i r a h hr
  obtain ⟨k, v⟩ := a
  obtain ⟨j, h1, h2⟩ := pair_inv h
  dsimp only at h1 h2
  obtain ⟨hk, rfl, -⟩ := ident_inv h1
  rcases opt_inv h2 with ⟨s, h3, rfl⟩ | ⟨-, rfl, rfl⟩
  · obtain ⟨j1, u, h4, h5⟩ := preceded_inv h3
    obtain ⟨j2, c, h6, h7⟩ := preceded_inv h5
    obtain ⟨j3, u', h8, h9⟩ := preceded_inv h7
    obtain ⟨t, ht, rfl⟩ := single_sound hx _ _ _ h9 hr
    obtain ⟨w₂, hw₂, rfl⟩ := cos0_sound h8 (append_ne hr)
    have := char_inv h6
    subst this
    obtain ⟨w₁, hw₁, rfl⟩ := cos0_sound h4 (by simp)
    exact ⟨_, .value hk hw₁ hw₂ ht, by simp⟩
  · exact ⟨_, .flag hk, rfl⟩

omit [Env] in
theorem comma_strict : Consumes (delimited cos0 (char ',') cos0) := (sep_strict ',').consumes

theorem rawMetadata_sound (hx : HexfPrefix) : SoundEnd rawMetadata (fun m => MetaText (some m)) := by
  intro i r m h
  obtain ⟨j, k, a, c, h1, h2, h3⟩ := delimited_inv h
  obtain ⟨k', u, h4, h5⟩ := preceded_inv h3
  have := char_inv h5
  subst this
  obtain ⟨w₂, hw₂, rfl⟩ := cos0_sound h4 (by simp)
  obtain ⟨j', u', h6, h7⟩ := terminated_inv h1
  have := char_inv h6
  subst this
  rcases sepList0_sound comma_strict metaItem_strict.consumes (sepChar_inv ',') (metaItem_sound hx) h2 (by simp) with
    ⟨rfl, rfl⟩ | ⟨t, ht, rfl⟩
  · obtain ⟨w₁, hw₁, rfl⟩ := cos0_sound h7 (by simp)
    exact ⟨_, .empty (trivia_append hw₁ hw₂), by simp⟩
  · obtain ⟨w₁, hw₁, rfl⟩ := cos0_sound h7 (by simp)
    exact ⟨_, .some hw₁ ht hw₂, by simp⟩

theorem metadata_sound (hx : HexfPrefix) : SoundEnd metadata MetaText := by
  intro i r m h
  rcases opt_inv h with ⟨s, h1, rfl⟩ | ⟨-, rfl, rfl⟩
  · exact rawMetadata_sound hx _ _ _ h1
  · exact ⟨[], .none, rfl⟩

theorem metaText_follow {m : Option Metadata} {t r : Str} (h : MetaText m t) (hr : Follow r) : Follow (t ++ r) := by
  cases h with
  | none => exact hr
  | empty _ => exact Follow.mk '(' _
  | some _ _ _ => exact Follow.mk '(' _

/-! ### Fields, tables and structs -/

theorem fieldDecl_sound (hx : HexfPrefix) : SoundEnd fieldDecl FieldText := by
  intro i r f h
  obtain ⟨⟨d, id, ty, df, m⟩, g, rfl⟩ := map_inv h
  obtain ⟨j, ⟨u, c⟩, h1, h2⟩ := terminated_inv g
  obtain ⟨j1, h3, h4⟩ := pair_inv h2
  have := char_inv h4
  subst this
  dsimp only at h3
  obtain ⟨w₄, hw₄, rfl⟩ := cos0_sound h3 (by simp)
  obtain ⟨j2, h5, h6⟩ := pair_inv h1
  obtain ⟨j3, h7, h8⟩ := pair_inv h6
  obtain ⟨j4, h9, h10⟩ := pair_inv h8
  obtain ⟨j5, h11, h12⟩ := pair_inv h10
  dsimp only at h5 h7 h9 h11 h12
  obtain ⟨j6, u', h13, h14⟩ := preceded_inv h12
  obtain ⟨mt, hm, rfl⟩ := metadata_sound hx _ _ _ h14
  obtain ⟨w₃, hw₃, rfl⟩ := cos0_sound h13 (by simp)
  have hf : Follow (w₃ ++ (mt ++ (w₄ ++ ';' :: r))) :=
    Follow.skip hw₃ (metaText_follow hm (Follow.trivia hw₄ ';'))
  have hdf : ∃ t, OptDefault df t ∧ j4 = t ++ (w₃ ++ (mt ++ (w₄ ++ ';' :: r))) := by
    rcases opt_inv h11 with ⟨v, h15, rfl⟩ | ⟨-, rfl, rfl⟩
    · obtain ⟨j7, ⟨u1, c1, u2⟩, h16, h17⟩ := preceded_inv h15
      obtain ⟨t, ht, rfl⟩ := default_sound hx h17 (by simp) (follow_word hf)
      obtain ⟨j8, h18, h19⟩ := pair_inv h16
      obtain ⟨j9, h20, h21⟩ := pair_inv h19
      dsimp only at h18 h20 h21
      obtain ⟨v₂, hv₂, rfl⟩ := cos0_sound h21 (by simp)
      have := char_inv h20
      subst this
      obtain ⟨v₁, hv₁, rfl⟩ := cos0_sound h18 (by simp)
      exact ⟨_, .some hv₁ hv₂ ht, by simp⟩
    · exact ⟨[], .none, rfl⟩
  obtain ⟨dt, hdt, rfl⟩ := hdf
  obtain ⟨tt, htt, rfl⟩ := type_sound _ _ _ h9 (by simp)
  obtain ⟨j7, ⟨u1, c1, u2⟩, h15, h16⟩ := terminated_inv h7
  obtain ⟨j8, h18, h19⟩ := pair_inv h16
  obtain ⟨j9, h20, h21⟩ := pair_inv h19
  dsimp only at h18 h20 h21
  obtain ⟨w₂, hw₂, rfl⟩ := cos0_sound h21 (by simp)
  have := char_inv h20
  subst this
  obtain ⟨w₁, hw₁, rfl⟩ := cos0_sound h18 (by simp)
  obtain ⟨hid, rfl, -⟩ := ident_inv h15
  obtain ⟨dc, hdc, rfl⟩ := docComment_sound _ _ _ h5 (by simp)
  exact ⟨_, .mk (f := ⟨id, ty, df, m, d⟩) hdc hid hw₁ hw₂ htt hdt hw₃ hm hw₄, by simp⟩

theorem fieldDecl_nil : fieldDecl [] = none := rfl

theorem productDecl_sound (hx : HexfPrefix) (kw : Str) : SoundEnd (productDecl kw) (ProductText kw) := by
  intro i r p h
  obtain ⟨⟨d, id, m, fs⟩, g, rfl⟩ := map_inv h
  obtain ⟨j, h1, h2⟩ := pair_inv g
  obtain ⟨j1, a, h3, h4⟩ := preceded_inv h2
  obtain ⟨j2, h5, h6⟩ := pair_inv h4
  obtain ⟨j3, h7, h8⟩ := pair_inv h6
  dsimp only at h1 h5 h7 h8
  obtain ⟨j4, j5, a1, c1, h9, h10, h11⟩ := delimited_inv h8
  obtain ⟨j6, u, h12, h13⟩ := terminated_inv h11
  have := char_inv h13
  subst this
  obtain ⟨v, hv, rfl⟩ := cos0_sound h12 (by simp)
  obtain ⟨j7, c, h14, h15⟩ := preceded_inv h9
  have := char_inv h14
  subst this
  have hb : ∃ w fst, Trivia w ∧ ManyText FieldText fs fst ∧ j7 = w ++ (fst ++ ('}' :: r)) := by
    rcases many0_sound fieldDecl_nil (fieldDecl_sound hx) h10 with ⟨rfl, rfl⟩ | ⟨hne, w, ts, e, hw, hts, -, rfl, he⟩
    · obtain ⟨w₁, hw₁, rfl⟩ := cos0_sound h15 (by simp)
      exact ⟨_, _, trivia_append hw₁ hv, .nil, by simp⟩
    · have := he (by simp)
      subst this
      obtain ⟨w₁, hw₁, rfl⟩ := cos0_sound h15 (by simp)
      exact ⟨_, _, trivia_append hw₁ hw, hts.extend hne hv, by simp⟩
  obtain ⟨w₄, ft, hw₄, hft, rfl⟩ := hb
  obtain ⟨j8, u8, h16, h17⟩ := terminated_inv h7
  obtain ⟨w₃, hw₃, rfl⟩ := cos0_sound h17 (by simp)
  obtain ⟨mt, hm, rfl⟩ := metadata_sound hx _ _ _ h16
  obtain ⟨j9, j10, u9, u10, h18, h19, h20⟩ := delimited_inv h5
  obtain ⟨w₂, hw₂, rfl⟩ := cos0_sound h20 (by simp)
  obtain ⟨hid, rfl, -⟩ := ident_inv h19
  obtain ⟨w₁, hw₁, hne₁, rfl⟩ := cos1_sound h18 (by simp)
  have := tag_inv h3
  subst this
  obtain ⟨dc, hdc, rfl⟩ := docComment_sound _ _ _ h1 (by simp)
  exact ⟨_, .mk (p := ⟨id, fs, m, d⟩) hdc hw₁ hne₁ hid hw₂ hm hw₃ hw₄ hft, by simp⟩

/-! ### Enums and unions -/

theorem variant_sound : Sound enumvalDecl VariantText := by
  intro i r v h hr
  obtain ⟨⟨d, id, val⟩, g, rfl⟩ := map_inv h
  obtain ⟨j, h1, h2⟩ := pair_inv g
  obtain ⟨j1, h3, h4⟩ := pair_inv h2
  dsimp only at h1 h3 h4
  have ho : ∃ t, OptInt val t ∧ j1 = t ++ r := by
    rcases opt_inv h4 with ⟨n, h5, rfl⟩ | ⟨-, rfl, rfl⟩
    · obtain ⟨j2, u, h6, h7⟩ := preceded_inv h5
      obtain ⟨j3, c, h8, h9⟩ := preceded_inv h7
      obtain ⟨j4, u', h10, h11⟩ := preceded_inv h9
      obtain ⟨t, ht, rfl⟩ := integerConstant_sound _ _ _ h11
      obtain ⟨w₂, hw₂, rfl⟩ := cos0_sound h10 (append_ne hr)
      have := char_inv h8
      subst this
      obtain ⟨w₁, hw₁, rfl⟩ := cos0_sound h6 (by simp)
      exact ⟨_, .some hw₁ hw₂ ht, by simp⟩
    · exact ⟨[], .none, rfl⟩
  obtain ⟨t, ht, rfl⟩ := ho
  obtain ⟨hid, rfl, -⟩ := ident_inv h3
  obtain ⟨dc, hdc, rfl⟩ := docComment_sound _ _ _ h1 (append_ne (append_ne hr))
  exact ⟨_, .mk (v := ⟨id, val, d⟩) hdc hid ht, by simp⟩

theorem enumBody_sound : SoundEnd enumBody BodyText := by
  intro i r vs h
  obtain ⟨j, k, a, c, h1, h2, h3⟩ := delimited_inv h
  obtain ⟨k1, u, h4, h5⟩ := preceded_inv h3
  have := char_inv h5
  subst this
  obtain ⟨w, hw, rfl⟩ := cos0_sound h4 (by simp)
  obtain ⟨k2, o, h6, h7⟩ := terminated_inv h2
  obtain ⟨i1, i2, u1, u2, h8, h9, h10⟩ := delimited_inv h1
  have := char_inv h9
  subst this
  rcases opt_inv h7 with ⟨⟨u3, c3, u4⟩, h11, rfl⟩ | ⟨-, rfl, rfl⟩
  · obtain ⟨k3, h12, h13⟩ := pair_inv h11
    obtain ⟨k4, h14, h15⟩ := pair_inv h13
    dsimp only at h12 h14 h15
    obtain ⟨v, hv, rfl⟩ := cos0_sound h15 (by simp)
    have := char_inv h14
    subst this
    obtain ⟨w₃, hw₃, rfl⟩ := cos0_sound h12 (by simp)
    obtain ⟨t, ht, rfl⟩ := sepList1_sound comma_strict enumvalDecl_strict.consumes (sepChar_inv ',') variant_sound
      _ _ _ h6 (by simp)
    obtain ⟨w₂, hw₂, rfl⟩ := cos0_sound h10 (by simp)
    obtain ⟨w₁, hw₁, rfl⟩ := cos0_sound h8 (by simp)
    exact ⟨_, .comma hw₁ hw₂ ht hw₃ (trivia_append hv hw), by simp⟩
  · obtain ⟨t, ht, rfl⟩ := sepList1_sound comma_strict enumvalDecl_strict.consumes (sepChar_inv ',') variant_sound
      _ _ _ h6 (by simp)
    obtain ⟨w₂, hw₂, rfl⟩ := cos0_sound h10 (by simp)
    obtain ⟨w₁, hw₁, rfl⟩ := cos0_sound h8 (by simp)
    exact ⟨_, .plain hw₁ hw₂ ht hw, by simp⟩

omit [Env] in
theorem bodyText_ne [Env] {vs : List EnumVariant} {t r : Str} (h : BodyText vs t) : t ++ r ≠ [] := by
  cases h <;> simp

theorem enumDecl_sound (hx : HexfPrefix) : SoundEnd enumDecl EnumText := by
  intro i r e h
  obtain ⟨⟨d, id, ty, m, vs⟩, g, rfl⟩ := map_inv h
  obtain ⟨j, h1, h2⟩ := pair_inv g
  obtain ⟨j1, h3, h4⟩ := pair_inv h2
  obtain ⟨j2, h5, h6⟩ := pair_inv h4
  obtain ⟨j3, h7, h8⟩ := pair_inv h6
  dsimp only at h1 h3 h5 h7 h8
  obtain ⟨b, hb, rfl⟩ := enumBody_sound _ _ _ h8
  obtain ⟨mt, hm, rfl⟩ := metadata_sound hx _ _ _ h7
  obtain ⟨k1, c, h9, h10⟩ := preceded_inv h5
  obtain ⟨k2, u, h11, h12⟩ := preceded_inv h10
  obtain ⟨tt, htt, rfl⟩ := type_sound _ _ _ h12 (append_ne (bodyText_ne hb))
  obtain ⟨w₃, hw₃, rfl⟩ := cos0_sound h11 (append_ne (append_ne (bodyText_ne hb)))
  have := char_inv h9
  subst this
  obtain ⟨k3, a, h13, h14⟩ := preceded_inv h3
  obtain ⟨k4, k5, u4, u5, h15, h16, h17⟩ := delimited_inv h14
  obtain ⟨w₂, hw₂, rfl⟩ := cos0_sound h17 (by simp)
  obtain ⟨hid, rfl, -⟩ := ident_inv h16
  obtain ⟨w₁, hw₁, hne₁, rfl⟩ := cos1_sound h15 (by simp)
  have := tag_inv h13
  subst this
  obtain ⟨dc, hdc, rfl⟩ := docComment_sound _ _ _ h1 (by simp)
  exact ⟨_, .mk (e := ⟨id, vs, ty, m, d⟩) hdc hw₁ hne₁ hid hw₂ hw₃ htt hm hb, by simp⟩

theorem unionDecl_sound (hx : HexfPrefix) : SoundEnd unionDecl UnionText := by
  intro i r e h
  obtain ⟨⟨d, id, m, vs⟩, g, rfl⟩ := map_inv h
  obtain ⟨j, h1, h2⟩ := pair_inv g
  obtain ⟨j1, h3, h4⟩ := pair_inv h2
  obtain ⟨j3, h7, h8⟩ := pair_inv h4
  dsimp only at h1 h3 h7 h8
  obtain ⟨b, hb, rfl⟩ := enumBody_sound _ _ _ h8
  obtain ⟨mt, hm, rfl⟩ := metadata_sound hx _ _ _ h7
  obtain ⟨k3, a, h13, h14⟩ := preceded_inv h3
  obtain ⟨k4, k5, u4, u5, h15, h16, h17⟩ := delimited_inv h14
  obtain ⟨w₂, hw₂, rfl⟩ := cos0_sound h17 (append_ne (bodyText_ne hb))
  obtain ⟨hid, rfl, -⟩ := ident_inv h16
  obtain ⟨w₁, hw₁, hne₁, rfl⟩ := cos1_sound h15 (append_ne (append_ne (append_ne (bodyText_ne hb))))
  have := tag_inv h13
  subst this
  obtain ⟨dc, hdc, rfl⟩ := docComment_sound _ _ _ h1 (by simp)
  exact ⟨_, .mk (u := ⟨id, vs, m, d⟩) hdc hw₁ hne₁ hid hw₂ hm hb, by simp⟩

/-! ### Services -/

theorem rpcMethod_sound (hx : HexfPrefix) : SoundEnd rpcMethod MethodText := by
  intro i r e h
  obtain ⟨⟨d, id, q₁, q₂, m⟩, g, rfl⟩ := map_inv h
  obtain ⟨j, h1, h2⟩ := pair_inv g
  obtain ⟨j1, h3, h4⟩ := pair_inv h2
  obtain ⟨j2, h5, h6⟩ := pair_inv h4
  dsimp only at h1 h3 h5 h6
  obtain ⟨k1, c, h7, h8⟩ := preceded_inv h6
  obtain ⟨k2, c2, h9, h10⟩ := terminated_inv h8
  obtain ⟨k3, u, h11, h12⟩ := terminated_inv h10
  have := char_inv h12
  subst this
  obtain ⟨w₇, hw₇, rfl⟩ := cos0_sound h11 (by simp)
  obtain ⟨k4, h13, h14⟩ := pair_inv h9
  dsimp only at h13 h14
  obtain ⟨k5, u5, h15, h16⟩ := preceded_inv h14
  obtain ⟨mt, hm, rfl⟩ := metadata_sound hx _ _ _ h16
  obtain ⟨w₆, hw₆, rfl⟩ := cos0_sound h15 (by simp)
  obtain ⟨t₂, ht₂, rfl⟩ := qualifiedIdent_sound _ _ _ h13 (by simp)
  obtain ⟨w₄, w₅, hw₄, hw₅, rfl⟩ := sepChar_inv _ _ _ _ h7 (by simp)
  obtain ⟨l1, l2, c3, c4, h17, h18, h19⟩ := delimited_inv h5
  have := char_inv h17
  subst this
  have := char_inv h19
  subst this
  obtain ⟨l3, l4, u3, u4, h20, h21, h22⟩ := delimited_inv h18
  obtain ⟨w₃, hw₃, rfl⟩ := cos0_sound h22 (by simp)
  obtain ⟨t₁, ht₁, rfl⟩ := qualifiedIdent_sound _ _ _ h21 (by simp)
  obtain ⟨w₂, hw₂, rfl⟩ := cos0_sound h20 (by simp)
  obtain ⟨l5, u6, h23, h24⟩ := terminated_inv h3
  obtain ⟨w₁, hw₁, rfl⟩ := cos0_sound h24 (by simp)
  obtain ⟨hid, rfl, -⟩ := ident_inv h23
  obtain ⟨dc, hdc, rfl⟩ := docComment_sound _ _ _ h1 (by simp)
  exact ⟨_, .mk (r := ⟨id, q₁, q₂, m, d⟩) hdc hid hw₁ hw₂ ht₁ hw₃ hw₄ hw₅ ht₂ hw₆ hm hw₇, by simp⟩

theorem rpcMethod_nil : rpcMethod [] = none := rfl

theorem rpcDecl_sound (hx : HexfPrefix) : SoundEnd rpcDecl RpcText := by
  intro i r e h
  obtain ⟨⟨d, id, ms⟩, g, rfl⟩ := map_inv h
  obtain ⟨j, h1, h2⟩ := pair_inv g
  obtain ⟨j1, h3, h4⟩ := pair_inv h2
  dsimp only at h1 h3 h4
  obtain ⟨k1, k2, c1, c2, h5, h6, h7⟩ := delimited_inv h4
  have := char_inv h5
  subst this
  have := char_inv h7
  subst this
  have hm : ms ≠ [] ∧ many0 (delimited cos0 rpcMethod cos0) k1 = some ('}' :: r, ms) := by
    rw [many0_eq (spaced_strict rpcMethod_strict).consumes]
    unfold many1 at h6
    cases e : delimited cos0 rpcMethod cos0 k1 with
    | none => rw [e] at h6; cases h6
    | some x =>
      rw [e] at h6
      dsimp only at h6
      refine ⟨?_, ?_⟩
      · obtain ⟨as, -, rfl⟩ := push_some h6
        simp
      · have hs := (spaced_strict rpcMethod_strict).ne e
        dsimp only
        rw [if_neg (fun h => by rw [h] at hs; exact lt_irrefl _ hs)]
        exact h6
  obtain ⟨hne, hm⟩ := hm
  rcases many0_sound rpcMethod_nil (rpcMethod_sound hx) hm with ⟨rfl, -⟩ | ⟨-, w₃, ts, e, hw₃, hts, -, rfl, he⟩
  · exact absurd rfl hne
  have := he (by simp)
  subst this
  obtain ⟨k3, a, h8, h9⟩ := preceded_inv h3
  obtain ⟨k4, u4, h10, h11⟩ := terminated_inv h9
  obtain ⟨w₂, hw₂, rfl⟩ := cos0_sound h11 (by simp)
  obtain ⟨hid, rfl, -⟩ := ident_inv h10
  obtain ⟨k5, u5, h12, h13⟩ := terminated_inv h8
  obtain ⟨w₁, hw₁, hne₁, rfl⟩ := cos1_sound h13 (by simp)
  have := tag_inv h12
  subst this
  obtain ⟨dc, hdc, rfl⟩ := docComment_sound _ _ _ h1 (by simp)
  exact ⟨_, .mk (r := ⟨id, ms, d⟩) hdc hw₁ hne₁ hid hw₂ hw₃ hne hts, by simp⟩

/-! ### Declarations by a keyword -/

omit [Env] in
theorem keywordDecl_gap {kw : Str} {p : P α} {R : α → Str → Prop} (hp : Sound p R) {i r : Str} {x : Comment × α}
    (h : keywordDecl kw (delimited cos1 p cos0) i = some (r, x)) :
    ∃ s t, R x.2 s ∧ KeywordText kw true x.1 s t ∧ i = t ++ r := by
  obtain ⟨d, a⟩ := x
  obtain ⟨j, h1, h2⟩ := pair_inv h
  obtain ⟨k1, k2, a1, c1, h3, h4, h5⟩ := delimited_inv h2
  dsimp only at h1 h4
  have := char_inv h5
  subst this
  obtain ⟨l1, l2, u1, u2, h6, h7, h8⟩ := delimited_inv h4
  obtain ⟨w₂, hw₂, rfl⟩ := cos0_sound h8 (by simp)
  obtain ⟨s, hs, rfl⟩ := hp _ _ _ h7 (by simp)
  obtain ⟨w₁, hw₁, hne, rfl⟩ := cos1_sound h6 (by simp)
  have := tag_inv h3
  subst this
  obtain ⟨dc, hdc, rfl⟩ := docComment_sound _ _ _ h1 (by simp)
  exact ⟨s, _, hs, .mk hdc hw₁ (fun _ => hne) hw₂, by simp⟩

omit [Env] in
theorem keywordDecl_free {kw : Str} {p : P α} {R : α → Str → Prop} (hp : Sound p R) {i r : Str} {x : Comment × α}
    (h : keywordDecl kw (delimited cos0 p cos0) i = some (r, x)) :
    ∃ s t, R x.2 s ∧ KeywordText kw false x.1 s t ∧ i = t ++ r := by
  obtain ⟨d, a⟩ := x
  obtain ⟨j, h1, h2⟩ := pair_inv h
  obtain ⟨k1, k2, a1, c1, h3, h4, h5⟩ := delimited_inv h2
  dsimp only at h1 h4
  have := char_inv h5
  subst this
  obtain ⟨l1, l2, u1, u2, h6, h7, h8⟩ := delimited_inv h4
  obtain ⟨w₂, hw₂, rfl⟩ := cos0_sound h8 (by simp)
  obtain ⟨s, hs, rfl⟩ := hp _ _ _ h7 (by simp)
  obtain ⟨w₁, hw₁, rfl⟩ := cos0_sound h6 (by simp)
  have := tag_inv h3
  subst this
  obtain ⟨dc, hdc, rfl⟩ := docComment_sound _ _ _ h1 (by simp)
  exact ⟨s, _, hs, .mk hdc hw₁ (fun h => by cases h) hw₂, by simp⟩

theorem attributeName_sound : Sound (alt ident stringConstant) (fun i s => IdentText i s ∨ StringText i s) := by
  intro i r a h hr
  rcases alt_inv h with h | ⟨-, h⟩
  · obtain ⟨t, ht, e⟩ := ident_sound _ _ _ h
    exact ⟨t, .inl ht, e⟩
  · obtain ⟨t, ht, e⟩ := stringConstant_sound _ _ _ h
    exact ⟨t, .inr ht, e⟩

theorem includeDecl_sound : SoundEnd includeDecl IncludeText := by
  intro i r a h
  obtain ⟨x, h1, h2⟩ := mapRes_inv h
  obtain ⟨s, t, hs, ht, e⟩ := keywordDecl_gap stringConstant_sound.sound h1
  cases hf : Env.fileStem x.2 with
  | none => rw [hf] at h2; cases h2
  | some stem =>
    rw [hf] at h2
    cases h2
    exact ⟨t, .mk hs hf ht, e⟩

omit [Env] in
theorem utf8_length_pos (c : Char) : 1 ≤ (String.utf8EncodeChar c).length := by
  rw [String.length_utf8EncodeChar]; exact c.utf8Size_pos

omit [Env] in
theorem utf8_one {c : Char} (h : (String.utf8EncodeChar c).length = 1) : c.toNat < 128 := by
  rw [String.length_utf8EncodeChar] at h
  have := Char.utf8Size_eq_one_iff.mp h
  have h2 := UInt32.le_iff_toNat_le.mp this
  exact Nat.lt_succ_of_le h2

theorem fileIdentifier_sound {i r : Str} {x : Comment × Bytes} (h : fileIdentifierDecl i = some (r, x)) :
    ∃ t, ElementText (.fileIdentifier x.2 x.1) t ∧ i = t ++ r := by
  obtain ⟨⟨d, s⟩, h1, h2⟩ := mapRes_inv h
  have hp : Sound (delimited (char '"') (take 4) (char '"')) (fun s t => s.length = 4 ∧ t = '"' :: (s ++ ['"'])) := by
    intro i r a h _
    obtain ⟨j, k, a1, a2, h1, h2, h3⟩ := delimited_inv h
    have := char_inv h1
    subst this
    have := char_inv h3
    subst this
    unfold take at h2
    split at h2
    · rename_i hl
      injection h2 with e
      injection e with e1 e2
      refine ⟨_, ⟨?_, rfl⟩, ?_⟩
      · rw [← e2, List.length_take]; omega
      · have := List.take_append_drop 4 j
        rw [e1, e2] at this
        simp [← this]
    · cases h2
  obtain ⟨s', t, ⟨hl, rfl⟩, ht, rfl⟩ := keywordDecl_free hp h1
  dsimp only at hl ht h2
  split at h2
  · rename_i hu
    cases h2
    obtain ⟨c₁, c₂, c₃, c₄, rfl⟩ : ∃ c₁ c₂ c₃ c₄, s = [c₁, c₂, c₃, c₄] := by
      match s, hl with
      | [a, b, c, d], _ => exact ⟨a, b, c, d, rfl⟩
    have hu' := hu
    simp only [utf8, List.flatMap_cons, List.flatMap_nil, List.length_append, List.length_nil] at hu'
    have p₁ := utf8_length_pos c₁
    have p₂ := utf8_length_pos c₂
    have p₃ := utf8_length_pos c₃
    have p₄ := utf8_length_pos c₄
    have a₁ := utf8_one (c := c₁) (by omega)
    have a₂ := utf8_one (c := c₂) (by omega)
    have a₃ := utf8_one (c := c₃) (by omega)
    have a₄ := utf8_one (c := c₄) (by omega)
    have hv : utf8 [c₁, c₂, c₃, c₄] = [c₁, c₂, c₃, c₄].map fun c => UInt8.ofNat c.toNat := by
      simp [utf8, utf8_ascii a₁, utf8_ascii a₂, utf8_ascii a₃, utf8_ascii a₄]
    refine ⟨t, ?_, rfl⟩
    rw [hv]
    refine .fileIdentifier (fun c hc => ?_) ht
    simp only [List.mem_cons, List.not_mem_nil, or_false] at hc
    rcases hc with rfl | rfl | rfl | rfl <;> assumption
  · cases h2

/-! ### Objects -/

theorem valuesText_of {l : List Value} {t : Str} (h : SepText ',' ValueText l t) : ValuesText l t := by
  induction h with
  | one h => exact .one h
  | cons h h1 h2 _ ih => exact .cons h h1 h2 ih

/-- A named value. -/
inductive PairText : Ident × Value → Str → Prop
  | mk {k : Ident} {v : Value} {w₁ w₂ t : Str} : IsIdent k → Trivia w₁ → Trivia w₂ → ValueText v t →
      PairText (k, v) (k ++ (w₁ ++ ':' :: (w₂ ++ t)))

theorem pairsText_of {l : List (Ident × Value)} {t : Str} (h : SepText ',' PairText l t) : PairsText l t := by
  induction h with
  | one h => obtain ⟨a, b, c, d⟩ := h; exact .one a b c d
  | cons h h1 h2 _ ih => obtain ⟨a, b, c, d⟩ := h; exact .cons a b c d h1 h2 ih

theorem objectOf_sound {v : P Value} (hc : Consumes v) (hv : Sound v ValueText) {i r : Str}
    {x : Comment × List (Ident × Value)} (h : objectOf v i = some (r, x)) :
    ∃ t, ObjectText x.2 x.1 t ∧ i = t ++ r := by
  obtain ⟨d, l⟩ := x
  obtain ⟨j, h1, h2⟩ := pair_inv h
  obtain ⟨j1, k, a, c, h3, h4, h5⟩ := delimited_inv h2
  dsimp only at h1 h4
  obtain ⟨k1, u, h6, h7⟩ := preceded_inv h5
  have := char_inv h7
  subst this
  obtain ⟨w₂, hw₂, rfl⟩ := cos0_sound h6 (by simp)
  obtain ⟨k2, u2, h8, h9⟩ := terminated_inv h3
  have := char_inv h8
  subst this
  have item : Sound (separatedPair ident (delimited cos0 (char ':') cos0) v) PairText := by
    intro i r a h hr
    obtain ⟨k, b⟩ := a
    obtain ⟨j, h1, h2⟩ := pair_inv h
    obtain ⟨j2, c, h3, h4⟩ := preceded_inv h2
    dsimp only at h1 h4
    obtain ⟨t, ht, rfl⟩ := hv _ _ _ h4 hr
    obtain ⟨w₁, w₂, hw₁, hw₂, rfl⟩ := sepChar_inv _ _ _ _ h3 (append_ne hr)
    obtain ⟨hk, rfl, -⟩ := ident_inv h1
    exact ⟨_, .mk hk hw₁ hw₂ ht, by simp⟩
  rcases sepList0_sound comma_strict (pair_consumes ident_strict.consumes (preceded_consumes (sep_strict ':').consumes hc))
    (sepChar_inv ',') item h4 (by simp) with ⟨rfl, rfl⟩ | ⟨t, ht, rfl⟩
  · obtain ⟨w₁, hw₁, rfl⟩ := cos0_sound h9 (by simp)
    obtain ⟨dc, hdc, rfl⟩ := docComment_sound _ _ _ h1 (by simp)
    exact ⟨_, .empty hdc (trivia_append hw₁ hw₂), by simp⟩
  · obtain ⟨w₁, hw₁, rfl⟩ := cos0_sound h9 (by simp)
    obtain ⟨dc, hdc, rfl⟩ := docComment_sound _ _ _ h1 (by simp)
    exact ⟨_, .some hdc hw₁ (pairsText_of ht) hw₂, by simp⟩

theorem valueListOf_sound {v : P Value} (hc : Consumes v) (hv : Sound v ValueText) {i r : Str} {l : List Value}
    (h : valueListOf v i = some (r, l)) : ∃ t, ValueText (.list l) t ∧ i = t ++ r := by
  obtain ⟨j1, k, a, c, h3, h4, h5⟩ := delimited_inv h
  obtain ⟨k1, u, h6, h7⟩ := preceded_inv h5
  have := char_inv h7
  subst this
  obtain ⟨w₂, hw₂, rfl⟩ := cos0_sound h6 (by simp)
  obtain ⟨k2, u2, h8, h9⟩ := terminated_inv h3
  have := char_inv h8
  subst this
  rcases sepList0_sound comma_strict hc (sepChar_inv ',') hv h4 (by simp) with ⟨rfl, rfl⟩ | ⟨t, ht, rfl⟩
  · obtain ⟨w₁, hw₁, rfl⟩ := cos0_sound h9 (by simp)
    exact ⟨_, .emptyList (trivia_append hw₁ hw₂), by simp⟩
  · obtain ⟨w₁, hw₁, rfl⟩ := cos0_sound h9 (by simp)
    exact ⟨_, .list hw₁ (valuesText_of ht) hw₂, by simp⟩

theorem valueGo_sound (hx : HexfPrefix) : ∀ n, Sound (valueGo n) ValueText
  | 0 => fun _ _ _ h => by cases h
  | n + 1 => by
    intro i r v h hr
    unfold valueGo at h
    have hc := (valueGo_strict n).consumes
    rcases alt_inv h with h | ⟨-, h⟩
    · obtain ⟨s, g, rfl⟩ := map_inv h
      obtain ⟨t, ht, e⟩ := single_sound hx _ _ _ g hr
      exact ⟨t, .single ht, e⟩
    · rcases alt_inv h with h | ⟨-, h⟩
      · obtain ⟨s, g, rfl⟩ := map_inv h
        obtain ⟨t, ht, e⟩ := objectOf_sound hc (valueGo_sound hx n) g
        exact ⟨t, .object ht, e⟩
      · obtain ⟨s, g, rfl⟩ := map_inv h
        exact valueListOf_sound hc (valueGo_sound hx n) g

theorem value_sound (hx : HexfPrefix) : Sound value_ ValueText := fun i r v h hr => valueGo_sound hx _ i r v h hr

theorem object_sound (hx : HexfPrefix) {i r : Str} {x : Comment × List (Ident × Value)}
    (h : object i = some (r, x)) : ∃ t, ObjectText x.2 x.1 t ∧ i = t ++ r :=
  objectOf_sound value__strict.consumes (value_sound hx) h

/-! ### Declarations and schemas -/

theorem element_sound (hx : HexfPrefix) : SoundEnd element ElementText := by
  intro i r e h
  rcases alt_inv h with h | ⟨-, h⟩
  · obtain ⟨x, g, rfl⟩ := map_inv h
    obtain ⟨s, t, hs, ht, e⟩ := keywordDecl_gap qualifiedIdent_sound g
    exact ⟨t, .namespace hs ht, e⟩
  rcases alt_inv h with h | ⟨-, h⟩
  · obtain ⟨x, g, rfl⟩ := map_inv h
    obtain ⟨t, ht, e⟩ := productDecl_sound hx _ _ _ _ g
    exact ⟨t, .table ht, e⟩
  rcases alt_inv h with h | ⟨-, h⟩
  · obtain ⟨x, g, rfl⟩ := map_inv h
    obtain ⟨t, ht, e⟩ := productDecl_sound hx _ _ _ _ g
    exact ⟨t, .struct ht, e⟩
  rcases alt_inv h with h | ⟨-, h⟩
  · obtain ⟨x, g, rfl⟩ := map_inv h
    obtain ⟨t, ht, e⟩ := enumDecl_sound hx _ _ _ g
    exact ⟨t, .enum ht, e⟩
  rcases alt_inv h with h | ⟨-, h⟩
  · obtain ⟨x, g, rfl⟩ := map_inv h
    obtain ⟨t, ht, e⟩ := unionDecl_sound hx _ _ _ g
    exact ⟨t, .union ht, e⟩
  rcases alt_inv h with h | ⟨-, h⟩
  · obtain ⟨x, g, rfl⟩ := map_inv h
    obtain ⟨s, t, hs, ht, e⟩ := keywordDecl_gap ident_sound.sound g
    obtain ⟨hs, rfl⟩ := hs
    exact ⟨t, .root hs ht, e⟩
  rcases alt_inv h with h | ⟨-, h⟩
  · obtain ⟨x, g, rfl⟩ := map_inv h
    obtain ⟨s, t, hs, ht, e⟩ := keywordDecl_free stringConstant_sound.sound g
    exact ⟨t, .fileExtension hs ht, e⟩
  rcases alt_inv h with h | ⟨-, h⟩
  · obtain ⟨x, g, rfl⟩ := map_inv h
    exact fileIdentifier_sound g
  rcases alt_inv h with h | ⟨-, h⟩
  · obtain ⟨x, g, rfl⟩ := map_inv h
    obtain ⟨s, t, hs, ht, e⟩ := keywordDecl_gap attributeName_sound g
    exact ⟨t, .attribute hs ht, e⟩
  rcases alt_inv h with h | ⟨-, h⟩
  · obtain ⟨x, g, rfl⟩ := map_inv h
    obtain ⟨t, ht, e⟩ := rpcDecl_sound hx _ _ _ g
    exact ⟨t, .rpc ht, e⟩
  · obtain ⟨x, g, rfl⟩ := map_inv h
    obtain ⟨t, ht, e⟩ := object_sound hx g
    exact ⟨t, .object ht, e⟩

/-- A text that is accepted is a way of writing the schema returned for it. -/
theorem schemaDecl_sound (hx : HexfPrefix) {i : Str} {s : Schema} (h : schemaDecl i = some ([], s)) :
    SchemaText s i := by
  obtain ⟨⟨is, es⟩, g, rfl⟩ := map_inv h
  obtain ⟨j, h1, h2⟩ := pair_inv g
  dsimp only at h1 h2
  rcases many0_sound element_nil (element_sound hx) h2 with ⟨rfl, rfl⟩ | ⟨hne, w, ts, e, hw, hts, he, rfl, -⟩
  · rcases many0_sound includeDecl_nil includeDecl_sound h1 with ⟨rfl, rfl⟩ | ⟨hne, w, ts, e, hw, hts, he, rfl, -⟩
    · exact .empty
    · have := SchemaText.mk (s := ⟨is, []⟩) (.inl hne) hw hts .nil he
      simpa using this
  · rw [List.append_nil] at h1
    rcases many0_sound includeDecl_nil includeDecl_sound h1 with ⟨rfl, rfl⟩ | ⟨hne', w', ts', e', hw', hts', he', rfl, hl⟩
    · have := SchemaText.mk (s := ⟨[], es⟩) (.inr hne) hw .nil hts he
      simpa using this
    · have hj : w ++ (ts ++ e) ≠ [] := by
        intro hj
        rw [List.append_nil, hj, many0_eq (spaced_strict element_strict).consumes, spaced_nil element_nil] at h2
        cases h2
        exact hne rfl
      have := hl hj
      subst this
      have := SchemaText.mk (s := ⟨is, es⟩) (.inl hne') hw' (hts'.extend hne' hw) hts he
      simpa using this

end Butte.Parse
