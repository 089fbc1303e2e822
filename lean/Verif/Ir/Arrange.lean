import Verif.Ir.Transform
/-
The namespace tree built at the end of the analysis (transform.rs 594-643): vocabulary to say where an item sits in
the tree, and lemmas about the stacking of namespaces.
-/
namespace Butte.Ir

/-! ### Where items sit in a tree -/

/-- The node is an item, not a module. -/
def Node.isItem : Node → Bool
  | .namespace .. => false
  | _ => true

mutual
/-- The items of a tree in order, each with the names of the modules around it, from the outside in. -/
def Node.leaves (path : List Ident) : Node → List (List Ident × Node)
  | .namespace i ns => Node.leavesL (path ++ [QIdent.simple i]) ns
  | .table t => [(path, .table t)]
  | .struct s => [(path, .struct s)]
  | .enum e => [(path, .enum e)]
  | .union u => [(path, .union u)]
  | .rpc r => [(path, .rpc r)]
/-- The items of a list of nodes. -/
def Node.leavesL (path : List Ident) : List Node → List (List Ident × Node)
  | [] => []
  | n :: ns => n.leaves path ++ Node.leavesL path ns
end

mutual
/-- The modules of a tree are proper: the identifier of each is its path, it is not empty, and no two modules
next to each other have the same name. -/
def Node.Proper (path : List Ident) : Node → Prop
  | .namespace i ns => i = path ++ [QIdent.simple i] ∧ ns ≠ [] ∧
      (Node.modules ns).Nodup ∧ Node.ProperL (path ++ [QIdent.simple i]) ns
  | _ => True
/-- The same for all nodes of a list. -/
def Node.ProperL (path : List Ident) : List Node → Prop
  | [] => True
  | n :: ns => n.Proper path ∧ Node.ProperL path ns
/-- The names of the modules in a list of nodes. -/
def Node.modules : List Node → List Ident
  | [] => []
  | .namespace i _ :: ns => QIdent.simple i :: Node.modules ns
  | _ :: ns => Node.modules ns
end

theorem leaves_item {n : Node} (h : n.isItem = true) (path : List Ident) : n.leaves path = [(path, n)] := by
  cases n <;> first | rfl | (simp [Node.isItem] at h)

theorem leavesL_append (path : List Ident) (a b : List Node) :
    Node.leavesL path (a ++ b) = Node.leavesL path a ++ Node.leavesL path b := by
  induction a with
  | nil => simp [Node.leavesL]
  | cons x a ih => simp [Node.leavesL, ih]

theorem leavesL_items {l : List Node} (h : ∀ n ∈ l, n.isItem = true) (path : List Ident) :
    Node.leavesL path l = l.map fun n => (path, n) := by
  induction l with
  | nil => simp [Node.leavesL]
  | cons x l ih =>
    simp only [Node.leavesL, List.map_cons]
    rw [leaves_item (h x (by simp)), ih (fun n hn => h n (by simp [hn]))]
    rfl

/-! ### Order -/

instance : Std.TransCmp cmpChar where
  eq_swap := by intro a b; simp only [cmpChar]; exact Std.OrientedCmp.eq_swap
  isLE_trans := by intro a b c; simp only [cmpChar]; exact Std.TransCmp.isLE_trans

instance : Std.LawfulEqCmp cmpChar where
  compare_self := by intro a; simp [cmpChar]
  eq_of_compare := by
    intro a b h
    simp only [cmpChar, Std.LawfulEqCmp.compare_eq_iff_eq] at h
    exact Char.toNat_inj.mp h

theorem mem_setInsert (q x : QIdent) (s : List QIdent) : x ∈ setInsert q s ↔ x = q ∨ x ∈ s := by
  induction s with
  | nil => simp [setInsert]
  | cons y s ih =>
    simp only [setInsert]
    split
    · simp
    · rename_i h
      have h := Std.LawfulEqCmp.compare_eq_iff_eq.mp h
      subst h; simp
    · simp only [List.mem_cons, ih]
      constructor
      · rintro (h | h | h) <;> simp [h]
      · rintro (h | h | h) <;> simp [h]

theorem sorted_setInsert (q : QIdent) (s : List QIdent) (h : s.Pairwise (cmpQIdent · · = .lt)) :
    (setInsert q s).Pairwise (cmpQIdent · · = .lt) := by
  induction s with
  | nil => simp [setInsert]
  | cons y s ih =>
    obtain ⟨h1, h2⟩ := List.pairwise_cons.mp h
    simp only [setInsert]
    split
    · rename_i hq
      refine List.pairwise_cons.mpr ⟨?_, h⟩
      intro z hz
      rcases List.mem_cons.mp hz with rfl | hz
      · exact hq
      · exact Std.TransCmp.lt_trans hq (h1 z hz)
    · exact h
    · rename_i hq
      refine List.pairwise_cons.mpr ⟨?_, ih h2⟩
      intro z hz
      rcases (mem_setInsert q z s).mp hz with rfl | hz
      · exact Std.OrientedCmp.gt_iff_lt.mp hq
      · exact h1 z hz

theorem foldl_setInsert (l s : List QIdent) (h : s.Pairwise (cmpQIdent · · = .lt)) :
    (l.foldl (fun s q => setInsert q s) s).Pairwise (cmpQIdent · · = .lt) ∧
      ∀ x, x ∈ l.foldl (fun s q => setInsert q s) s ↔ x ∈ l ∨ x ∈ s := by
  induction l generalizing s with
  | nil => simp [h]
  | cons q l ih =>
    simp only [List.foldl_cons]
    obtain ⟨h1, h2⟩ := ih (setInsert q s) (sorted_setInsert q s h)
    refine ⟨h1, fun x => ?_⟩
    rw [h2, mem_setInsert, List.mem_cons]
    constructor
    · rintro (h | h | h) <;> simp [h]
    · rintro ((h | h) | h) <;> simp [h]

theorem lt_ne {α : Type} {cmp : α → α → Ordering} [Std.TransCmp cmp] [Std.LawfulEqCmp cmp] {a b : α}
    (h : cmp a b = .lt) : a ≠ b := by
  rintro rfl
  rw [(Std.LawfulEqCmp.compare_eq_iff_eq (cmp := cmp) (a := a)).mpr rfl] at h
  cases h

theorem nsIdents_nodup (items : List Node) : (nsIdents items).Nodup :=
  List.Pairwise.imp (fun h => lt_ne h) (foldl_setInsert (items.filterMap Node.ns) [] List.Pairwise.nil).1

theorem mem_nsIdents (items : List Node) (q : QIdent) :
    q ∈ nsIdents items ↔ ∃ n ∈ items, n.ns = some q := by
  unfold nsIdents
  rw [(foldl_setInsert (items.filterMap Node.ns) [] List.Pairwise.nil).2]
  simp

/-! ### Stacking -/

/-- Keys in strict order. -/
abbrev KeySorted (l : List NsBuf) : Prop := l.Pairwise fun a b => cmpIdent a.key b.key = .lt

mutual
/-- Invariant of the buffers. -/
def NsBuf.WF (path : List Ident) : NsBuf → Prop
  | .mk k i subs nodes => i = path ++ [k] ∧ (∀ n ∈ nodes, n.isItem = true) ∧ (subs ≠ [] ∨ nodes ≠ []) ∧
      KeySorted subs ∧ NsBuf.WFL (path ++ [k]) subs
/-- Invariant of the entries of a map. -/
def NsBuf.WFL (path : List Ident) : List NsBuf → Prop
  | [] => True
  | b :: bs => b.WF path ∧ NsBuf.WFL path bs
end

theorem WFL_iff (path : List Ident) (l : List NsBuf) : NsBuf.WFL path l ↔ ∀ b ∈ l, b.WF path := by
  induction l with
  | nil => simp [NsBuf.WFL]
  | cons b l ih => simp [NsBuf.WFL, ih]

/-- The items of the entry at a path. -/
def itemsAt : List Ident → List NsBuf → List Node
  | [], _ => []
  | k :: r, l => match l.find? (fun b => b.key == k) with
    | none => []
    | some (.mk _ _ subs nodes) => if r = [] then nodes else itemsAt r subs

theorem key_upsert {k : Ident} {f : Option NsBuf → NsBuf} (hf : ∀ o, (∀ b, o = some b → b.key = k) → (f o).key = k)
    (l : List NsBuf) (x : NsBuf) (h : x ∈ upsert k f l) :
    x.key = k ∧ (x = f none ∨ ∃ b ∈ l, b.key = k ∧ x = f (some b)) ∨ x ∈ l := by
  induction l with
  | nil =>
    simp only [upsert, List.mem_singleton] at h
    subst h
    exact .inl ⟨hf none (by simp), .inl rfl⟩
  | cons b l ih =>
    simp only [upsert] at h
    split at h
    · rcases List.mem_cons.mp h with rfl | h
      · exact .inl ⟨hf none (by simp), .inl rfl⟩
      · exact .inr h
    · rename_i e
      have e := Std.LawfulEqCmp.compare_eq_iff_eq.mp e
      rcases List.mem_cons.mp h with rfl | h
      · exact .inl ⟨hf _ (by intro b' hb; cases hb; exact e.symm), .inr ⟨b, by simp, e.symm, rfl⟩⟩
      · exact .inr (by simp [h])
    · rcases List.mem_cons.mp h with rfl | h
      · exact .inr (by simp)
      · rcases ih h with ⟨h1, h2⟩ | h1
        · refine .inl ⟨h1, ?_⟩
          rcases h2 with h2 | ⟨b', hb, h2⟩
          · exact .inl h2
          · exact .inr ⟨b', by simp [hb], h2⟩
        · exact .inr (by simp [h1])

theorem upsert_ne_nil (k : Ident) (f : Option NsBuf → NsBuf) (l : List NsBuf) : upsert k f l ≠ [] := by
  cases l with
  | nil => simp [upsert]
  | cons b l => simp only [upsert]; split <;> simp

theorem sorted_upsert {k : Ident} {f : Option NsBuf → NsBuf}
    (hf : ∀ o, (∀ b, o = some b → b.key = k) → (f o).key = k) (l : List NsBuf) (h : KeySorted l) :
    KeySorted (upsert k f l) := by
  induction l with
  | nil => simp [upsert, KeySorted]
  | cons b l ih =>
    obtain ⟨h1, h2⟩ := List.pairwise_cons.mp h
    simp only [upsert]
    have hn : (f none).key = k := hf none (by simp)
    split
    · rename_i e
      refine List.pairwise_cons.mpr ⟨?_, h⟩
      intro z hz
      rw [hn]
      rcases List.mem_cons.mp hz with rfl | hz
      · exact e
      · exact Std.TransCmp.lt_trans e (h1 z hz)
    · rename_i e
      have e := Std.LawfulEqCmp.compare_eq_iff_eq.mp e
      refine List.pairwise_cons.mpr ⟨?_, h2⟩
      intro z hz
      rw [hf _ (by intro b' hb; cases hb; exact e.symm), e]
      exact h1 z hz
    · rename_i e
      refine List.pairwise_cons.mpr ⟨?_, ih h2⟩
      intro z hz
      rcases key_upsert hf l z hz with ⟨h3, _⟩ | h3
      · rw [h3]; exact Std.OrientedCmp.gt_iff_lt.mp e
      · exact h1 z h3

theorem find_upsert {k : Ident} {f : Option NsBuf → NsBuf}
    (hf : ∀ o, (∀ b, o = some b → b.key = k) → (f o).key = k) (l : List NsBuf) (h : KeySorted l) (j : Ident) :
    (upsert k f l).find? (fun b => b.key == j) =
      if j = k then some (f (l.find? (fun b => b.key == k))) else l.find? (fun b => b.key == j) := by
  induction l with
  | nil =>
    simp only [upsert, List.find?_singleton, List.find?_nil]
    rw [hf none (by simp)]
    by_cases e : j = k
    · subst e; simp
    · rw [if_neg e, if_neg (by simpa using Ne.symm e)]
  | cons b l ih =>
    obtain ⟨h1, h2⟩ := List.pairwise_cons.mp h
    simp only [upsert]
    have hn : (f none).key = k := hf none (by simp)
    split
    · rename_i e
      have hb : ∀ x ∈ b :: l, x.key ≠ k := by
        intro x hx hk
        have hlt : cmpIdent k x.key = .lt := by
          rcases List.mem_cons.mp hx with rfl | hx
          · exact e
          · exact Std.TransCmp.lt_trans e (h1 x hx)
        exact lt_ne hlt hk.symm
      have hnone : (b :: l).find? (fun b => b.key == k) = none := by
        rw [List.find?_eq_none]
        intro x hx; simpa using hb x hx
      rw [hnone]
      by_cases ej : j = k
      · subst ej; rw [List.find?_cons_of_pos (by simpa using hn)]; simp
      · rw [List.find?_cons_of_neg (by rw [hn]; simpa using Ne.symm ej), if_neg ej]
    · rename_i e
      have e := Std.LawfulEqCmp.compare_eq_iff_eq.mp e
      have hk : (f (some b)).key = k := hf _ (by intro b' hb; cases hb; exact e.symm)
      by_cases ej : j = k
      · subst ej
        rw [List.find?_cons_of_pos (by simpa using hk), if_pos rfl, List.find?_cons_of_pos (by simpa using e.symm)]
      · rw [List.find?_cons_of_neg (by rw [hk]; simpa using Ne.symm ej), if_neg ej,
          List.find?_cons_of_neg (by rw [← e]; simpa using Ne.symm ej)]
    · rename_i e
      have hlt := Std.OrientedCmp.gt_iff_lt.mp e
      have hbk : b.key ≠ k := lt_ne hlt
      rw [List.find?_cons, List.find?_cons, List.find?_cons, ih h2]
      by_cases ej : j = k
      · subst ej
        simp [show (b.key == j) = false by simpa using hbk]
      · simp only [if_neg ej]

/-- The function that `place` applies to the entry of the first part. -/
def placeEntry (anc : List Ident) (k : Ident) (r : List Ident) (kids : List Node) : Option NsBuf → NsBuf
  | some (.mk k' i subs ns) => if r = [] then .mk k' i subs kids else .mk k' i (place (anc ++ [k]) r kids subs) ns
  | none => if r = [] then .mk k (anc ++ [k]) [] kids else .mk k (anc ++ [k]) (place (anc ++ [k]) r kids []) []

theorem place_cons (anc : List Ident) (k : Ident) (r : List Ident) (kids : List Node) (l : List NsBuf) :
    place anc (k :: r) kids l = upsert k (placeEntry anc k r kids) l := by
  cases r with
  | nil =>
    simp only [place]
    refine congrArg (fun f => upsert k f l) ?_
    funext o
    rcases o with _ | ⟨k', i, subs, ns⟩ <;> simp [placeEntry]
  | cons k2 r =>
    simp only [place]
    refine congrArg (fun f => upsert k f l) ?_
    funext o
    rcases o with _ | ⟨k', i, subs, ns⟩ <;> simp [placeEntry]

theorem placeEntry_none_leaf (anc : List Ident) (k : Ident) (kids : List Node) :
    placeEntry anc k [] kids none = .mk k (anc ++ [k]) [] kids := by simp [placeEntry]
theorem placeEntry_none (anc : List Ident) (k : Ident) {r : List Ident} (hr : r ≠ []) (kids : List Node) :
    placeEntry anc k r kids none = .mk k (anc ++ [k]) (place (anc ++ [k]) r kids []) [] := by simp [placeEntry, hr]
theorem placeEntry_some_leaf (anc : List Ident) (k : Ident) (kids : List Node) (k' i subs ns) :
    placeEntry anc k [] kids (some (.mk k' i subs ns)) = .mk k' i subs kids := by simp [placeEntry]
theorem placeEntry_some (anc : List Ident) (k : Ident) {r : List Ident} (hr : r ≠ []) (kids : List Node)
    (k' i subs ns) : placeEntry anc k r kids (some (.mk k' i subs ns)) =
      .mk k' i (place (anc ++ [k]) r kids subs) ns := by simp [placeEntry, hr]

theorem placeEntry_key (anc : List Ident) (k : Ident) (r : List Ident) (kids : List Node) (o : Option NsBuf)
    (h : ∀ b, o = some b → b.key = k) : (placeEntry anc k r kids o).key = k := by
  rcases o with _ | ⟨k', i, subs, ns⟩
  · simp only [placeEntry]; split <;> rfl
  · have := h _ rfl
    simp only [placeEntry]; split <;> exact this

theorem place_ne_nil (anc : List Ident) (p : List Ident) (hp : p ≠ []) (kids : List Node) (l : List NsBuf) :
    place anc p kids l ≠ [] := by
  cases p with
  | nil => exact absurd rfl hp
  | cons k r => rw [place_cons]; exact upsert_ne_nil _ _ _

theorem place_wf (anc p : List Ident) (kids : List Node) (hk : kids ≠ []) (hi : ∀ n ∈ kids, n.isItem = true)
    (l : List NsBuf) (hs : KeySorted l) (hw : NsBuf.WFL anc l) :
    KeySorted (place anc p kids l) ∧ NsBuf.WFL anc (place anc p kids l) := by
  induction p generalizing anc l with
  | nil => exact ⟨hs, hw⟩
  | cons k r ih =>
    rw [place_cons]
    refine ⟨sorted_upsert (placeEntry_key anc k r kids) l hs, ?_⟩
    rw [WFL_iff] at hw ⊢
    intro x hx
    rcases key_upsert (placeEntry_key anc k r kids) l x hx with ⟨_, h⟩ | h
    · rcases h with rfl | ⟨b, hb, hbk, rfl⟩
      · by_cases hr : r = []
        · subst hr
          rw [placeEntry_none_leaf]
          exact ⟨rfl, hi, .inr hk, List.Pairwise.nil, trivial⟩
        · rw [placeEntry_none _ _ hr]
          obtain ⟨h1, h2⟩ := ih (anc ++ [k]) [] List.Pairwise.nil trivial
          exact ⟨rfl, by simp, .inl (place_ne_nil _ _ hr _ _), h1, h2⟩
      · obtain ⟨k', i, subs, ns⟩ := b
        obtain ⟨w1, w2, w3, w4, w5⟩ := hw _ hb
        simp only [NsBuf.key] at hbk
        subst hbk
        by_cases hr : r = []
        · subst hr
          rw [placeEntry_some_leaf]
          exact ⟨w1, hi, .inr hk, w4, w5⟩
        · rw [placeEntry_some _ _ hr]
          obtain ⟨h1, h2⟩ := ih (anc ++ [k']) subs w4 w5
          exact ⟨w1, w2, .inl (place_ne_nil _ _ hr _ _), h1, h2⟩
    · exact hw x h

theorem itemsAt_nil (p : List Ident) : itemsAt p [] = [] := by
  cases p <;> simp [itemsAt]

theorem itemsAt_place (anc p q : List Ident) (kids : List Node) (hp : p ≠ []) (l : List NsBuf) (hs : KeySorted l)
    (hw : NsBuf.WFL anc l) : itemsAt q (place anc p kids l) = if q = p then kids else itemsAt q l := by
  induction p generalizing anc l q with
  | nil => exact absurd rfl hp
  | cons k r ih =>
    cases q with
    | nil => simp [itemsAt]
    | cons j s =>
      rw [place_cons]
      simp only [itemsAt]
      rw [find_upsert (placeEntry_key anc k r kids) l hs]
      by_cases ej : j = k
      · subst ej
        rw [if_pos rfl]
        cases hfind : l.find? (fun b => b.key == j) with
        | none =>
          by_cases er : r = []
          · subst er
            rw [placeEntry_none_leaf]
            by_cases es : s = [] <;> simp [es, itemsAt_nil]
          · rw [placeEntry_none _ _ er]
            simp only
            rw [ih (anc ++ [j]) s er [] List.Pairwise.nil trivial, itemsAt_nil]
            by_cases es : s = []
            · subst es; simp [Ne.symm er]
            · simp [es]
        | some b =>
          obtain ⟨k', i, subs, ns⟩ := b
          have hb := List.mem_of_find?_eq_some hfind
          obtain ⟨w1, w2, w3, w4, w5⟩ := (WFL_iff _ _).mp hw _ hb
          have hk' : k' = j := by simpa [NsBuf.key] using List.find?_some hfind
          subst hk'
          by_cases er : r = []
          · subst er
            rw [placeEntry_some_leaf]
            by_cases es : s = [] <;> simp [es]
          · rw [placeEntry_some _ _ er]
            simp only
            rw [ih (anc ++ [k']) s er subs w4 w5]
            by_cases es : s = []
            · subst es; simp [Ne.symm er]
            · simp [es]
      · rw [if_neg ej, if_neg (by simp [ej])]

/-! ### From buffers to nodes -/

mutual
theorem leaves_prefix (path : List Ident) (b : NsBuf) (hw : b.WF path) :
    ∀ x ∈ b.toNode.leaves path, ∃ s, x.1 = path ++ b.key :: s := by
  match b with
  | .mk k i subs nodes =>
    obtain ⟨w1, w2, w3, w4, w5⟩ := hw
    intro x hx
    subst w1
    simp only [NsBuf.toNode, Node.leaves, QIdent.simple] at hx
    rw [leavesL_append] at hx
    have he : (path ++ [k]).getLastD [] = k := by simp
    rw [he] at hx
    rcases List.mem_append.mp hx with hx | hx
    · obtain ⟨j, s, h⟩ := leavesL_prefix (path ++ [k]) subs w5 x hx
      exact ⟨j :: s, by simp [h, NsBuf.key]⟩
    · rw [leavesL_items w2] at hx
      obtain ⟨n, _, rfl⟩ := List.mem_map.mp hx
      exact ⟨[], rfl⟩
theorem leavesL_prefix (path : List Ident) (l : List NsBuf) (hw : NsBuf.WFL path l) :
    ∀ x ∈ Node.leavesL path (NsBuf.toNodes l), ∃ k s, x.1 = path ++ k :: s := by
  match l with
  | [] => intro x hx; simp [NsBuf.toNodes, Node.leavesL] at hx
  | b :: l =>
    intro x hx
    simp only [NsBuf.toNodes, Node.leavesL] at hx
    rcases List.mem_append.mp hx with hx | hx
    · obtain ⟨s, h⟩ := leaves_prefix path b hw.1 x hx
      exact ⟨b.key, s, h⟩
    · exact leavesL_prefix path l hw.2 x hx
end

theorem filter_eq_nil' {α : Type} {p : α → Bool} {l : List α} (h : ∀ x ∈ l, p x = false) : l.filter p = [] := by
  rw [List.filter_eq_nil_iff]; intro x hx; simp [h x hx]

/-- The items with a given path in the tree are those of the entry at that path. -/
theorem leavesL_filter (path p : List Ident) (l : List NsBuf) (hs : KeySorted l) (hw : NsBuf.WFL path l) :
    ((Node.leavesL path (NsBuf.toNodes l)).filter fun x => x.1 == path ++ p).map (·.2) = itemsAt p l := by
  induction p generalizing path l with
  | nil =>
    rw [filter_eq_nil']
    · simp [itemsAt]
    · intro x hx
      obtain ⟨k, s, h⟩ := leavesL_prefix path l hw x hx
      simp [h]
  | cons k r ih =>
    induction l with
    | nil => simp [NsBuf.toNodes, Node.leavesL, itemsAt_nil]
    | cons b l ihl =>
      obtain ⟨s1, s2⟩ := List.pairwise_cons.mp hs
      simp only [NsBuf.toNodes, Node.leavesL, List.filter_append, List.map_append]
      by_cases hbk : b.key = k
      · -- later entries have other keys
        have hrest : (Node.leavesL path (NsBuf.toNodes l)).filter (fun x => x.1 == path ++ k :: r) = [] := by
          apply filter_eq_nil'
          intro x hx
          -- the item belongs to one of the entries
          have : ∀ (l : List NsBuf), NsBuf.WFL path l → (∀ b' ∈ l, b'.key ≠ k) →
              ∀ x ∈ Node.leavesL path (NsBuf.toNodes l), (x.1 == path ++ k :: r) = false := by
            intro l
            induction l with
            | nil => intro _ _ x hx; simp [NsBuf.toNodes, Node.leavesL] at hx
            | cons b' l ih' =>
              intro hw hne x hx
              simp only [NsBuf.toNodes, Node.leavesL] at hx
              rcases List.mem_append.mp hx with hx | hx
              · obtain ⟨s, h⟩ := leaves_prefix path b' hw.1 x hx
                have := hne b' (by simp)
                simp [h, this]
              · exact ih' hw.2 (fun b'' hb => hne b'' (by simp [hb])) x hx
          exact this l hw.2 (fun b' hb' e => lt_ne (s1 b' hb') (hbk.trans e.symm)) x hx
        rw [hrest]
        obtain ⟨k', i, subs, nodes⟩ := b
        simp only [NsBuf.key] at hbk
        subst hbk
        obtain ⟨w1, w2, w3, w4, w5⟩ := hw.1
        subst w1
        simp only [itemsAt]
        rw [List.find?_cons_of_pos (by simp [NsBuf.key])]
        simp only [NsBuf.toNode, Node.leaves, QIdent.simple]
        have he : (path ++ [k']).getLastD [] = k' := by simp
        rw [he, leavesL_append, List.filter_append, List.map_append, leavesL_items w2]
        have hpath : path ++ k' :: r = (path ++ [k']) ++ r := by simp
        rw [hpath, ih (path ++ [k']) subs w4 w5]
        by_cases er : r = []
        · subst er
          simp [itemsAt, List.filter_map, Function.comp_def]
        · rw [if_neg er]
          have : (nodes.map fun n => (path ++ [k'], n)).filter (fun x => x.1 == path ++ [k'] ++ r) = [] := by
            apply filter_eq_nil'
            intro x hx
            obtain ⟨n, _, rfl⟩ := List.mem_map.mp hx
            simp [er]
          rw [this]; simp
      · have hfirst : (b.toNode.leaves path).filter (fun x => x.1 == path ++ k :: r) = [] := by
          apply filter_eq_nil'
          intro x hx
          obtain ⟨s, h⟩ := leaves_prefix path b hw.1 x hx
          simp [h, hbk]
        rw [hfirst, ihl s2 hw.2]
        simp only [itemsAt, List.map_nil, List.nil_append]
        rw [List.find?_cons_of_neg (by simpa using hbk)]

theorem modules_append (a b : List Node) : Node.modules (a ++ b) = Node.modules a ++ Node.modules b := by
  induction a with
  | nil => simp [Node.modules]
  | cons x a ih => cases x <;> simp [Node.modules, ih]

theorem modules_items {l : List Node} (h : ∀ n ∈ l, n.isItem = true) : Node.modules l = [] := by
  induction l with
  | nil => simp [Node.modules]
  | cons x l ih =>
    have := h x (by simp)
    cases x <;> first
      | (simp only [Node.modules]; exact ih (fun n hn => h n (by simp [hn])))
      | simp [Node.isItem] at this

theorem modules_toNodes {path : List Ident} {l : List NsBuf} (hw : NsBuf.WFL path l) :
    Node.modules (NsBuf.toNodes l) = l.map NsBuf.key := by
  induction l with
  | nil => simp [NsBuf.toNodes, Node.modules]
  | cons b l ih =>
    obtain ⟨k, i, subs, nodes⟩ := b
    obtain ⟨w1, _⟩ := hw.1
    subst w1
    simp [NsBuf.toNodes, NsBuf.toNode, Node.modules, QIdent.simple, NsBuf.key, ih hw.2]

theorem ProperL_append (path : List Ident) (a b : List Node) :
    Node.ProperL path (a ++ b) ↔ Node.ProperL path a ∧ Node.ProperL path b := by
  induction a with
  | nil => simp [Node.ProperL]
  | cons x a ih => simp [Node.ProperL, ih, and_assoc]

theorem ProperL_items {l : List Node} (h : ∀ n ∈ l, n.isItem = true) (path : List Ident) :
    Node.ProperL path l := by
  induction l with
  | nil => simp [Node.ProperL]
  | cons x l ih =>
    refine ⟨?_, ih (fun n hn => h n (by simp [hn]))⟩
    have := h x (by simp)
    cases x <;> first | trivial | (simp [Node.isItem] at this)

theorem keys_nodup {l : List NsBuf} (h : KeySorted l) : (l.map NsBuf.key).Nodup := by
  unfold List.Nodup
  rw [List.pairwise_map]
  exact h.imp (fun h => lt_ne h)

mutual
theorem proper_toNode (path : List Ident) (b : NsBuf) (hw : b.WF path) : b.toNode.Proper path := by
  match b with
  | .mk k i subs nodes =>
    obtain ⟨w1, w2, w3, w4, w5⟩ := hw
    subst w1
    have he : QIdent.simple (path ++ [k]) = k := by simp [QIdent.simple]
    simp only [NsBuf.toNode, Node.Proper]
    rw [he]
    refine ⟨rfl, ?_, ?_, ?_⟩
    · rcases w3 with w3 | w3
      · cases subs with
        | nil => exact absurd rfl w3
        | cons b bs => simp [NsBuf.toNodes]
      · simp [w3]
    · rw [modules_append, modules_items w2, modules_toNodes w5, List.append_nil]
      exact keys_nodup w4
    · rw [ProperL_append]
      exact ⟨proper_toNodes (path ++ [k]) subs w5, ProperL_items w2 _⟩
theorem proper_toNodes (path : List Ident) (l : List NsBuf) (hw : NsBuf.WFL path l) :
    Node.ProperL path (NsBuf.toNodes l) := by
  match l with
  | [] => simp [NsBuf.toNodes, Node.ProperL]
  | b :: l => exact ⟨proper_toNode path b hw.1, proper_toNodes path l hw.2⟩
end

/-! ### The whole arrangement -/

/-- The stacked namespaces. -/
def stacked (items : List Node) (qs : List QIdent) (l : List NsBuf) : List NsBuf :=
  qs.foldl (fun l q => place [] q (items.filter fun n => n.ns == some q) l) l

theorem stacked_spec (items : List Node) (hi : ∀ n ∈ items, n.isItem = true) (qs : List QIdent)
    (hq : ∀ q ∈ qs, q ≠ [] ∧ ∃ n ∈ items, n.ns = some q) (hn : qs.Nodup) (l : List NsBuf) (hs : KeySorted l)
    (hw : NsBuf.WFL [] l) (hl : ∀ q ∈ qs, itemsAt q l = []) :
    KeySorted (stacked items qs l) ∧ NsBuf.WFL [] (stacked items qs l) ∧
      ∀ p, itemsAt p (stacked items qs l) =
        if p ∈ qs then items.filter (fun n => n.ns == some p) else itemsAt p l := by
  induction qs generalizing l with
  | nil => simp [stacked, hs, hw]
  | cons q qs ih =>
    obtain ⟨hn1, hn2⟩ := List.nodup_cons.mp hn
    obtain ⟨hq1, n, hnm, hns⟩ := hq q (by simp)
    have hk : (items.filter fun n => n.ns == some q) ≠ [] := by
      intro e
      have := List.filter_eq_nil_iff.mp e n hnm
      simp [hns] at this
    obtain ⟨hs', hw'⟩ := place_wf [] q _ hk (fun n hn => hi n ((List.mem_filter.mp hn).1)) l hs hw
    have hat := fun p => itemsAt_place [] q p (items.filter fun n => n.ns == some q) hq1 l hs hw
    obtain ⟨r1, r2, r3⟩ := ih (fun q' h' => hq q' (by simp [h'])) hn2
      (place [] q (items.filter fun n => n.ns == some q) l) hs' hw' (by
        intro q' h'
        rw [hat, if_neg (by rintro rfl; exact hn1 h')]
        exact hl q' (by simp [h']))
    refine ⟨r1, r2, fun p => ?_⟩
    have : itemsAt p (stacked items (q :: qs) l) = _ := r3 p
    rw [this, hat]
    by_cases e1 : p ∈ qs
    · simp [e1]
    · by_cases e2 : p = q
      · subst e2; simp [e1]
      · simp [e1, e2]

theorem ns_ne_nil {n : Node} {q : QIdent} (h : n.ns = some q) : q ≠ [] := by
  unfold Node.ns QIdent.namespace at h
  split at h
  · cases h
    intro e
    have := congrArg List.length e
    simp only [List.length_take, List.length_nil] at this
    omega
  · cases h

theorem ns_eq_iff {n : Node} (hn : n.ident ≠ []) (p : List Ident) (hp : p ≠ []) :
    n.ns = some p ↔ n.ident.dropLast = p := by
  have hl : n.ident.length ≠ 0 := by simpa using hn
  unfold Node.ns QIdent.namespace
  rw [List.dropLast_eq_take]
  split
  · simp
  · have : n.ident.length - 1 = 0 := by omega
    rw [this]; simp [Ne.symm hp]

theorem ns_none_iff {n : Node} (hn : n.ident ≠ []) : n.ns = none ↔ n.ident.dropLast = [] := by
  have hl : n.ident.length ≠ 0 := by simpa using hn
  unfold Node.ns QIdent.namespace
  rw [List.dropLast_eq_take]
  split
  · simp only [reduceCtorEq, false_iff]
    intro e
    have := congrArg List.length e
    simp only [List.length_take, List.length_nil] at this
    omega
  · have : n.ident.length - 1 = 0 := by omega
    rw [this]; simp

/-- The tree of any list of items. -/
theorem arrange_spec (items : List Node) (hi : ∀ n ∈ items, n.isItem = true) (hne : ∀ n ∈ items, n.ident ≠ []) :
    (∀ p, ((Node.leavesL [] (arrange items)).filter fun x => x.1 == p).map (·.2) =
      items.filter fun n => n.ident.dropLast == p) ∧
    Node.ProperL [] (arrange items) ∧ (Node.modules (arrange items)).Nodup := by
  obtain ⟨s1, s2, s3⟩ := stacked_spec items hi (nsIdents items)
    (fun q hq => by
      obtain ⟨n, hn, e⟩ := (mem_nsIdents items q).mp hq
      exact ⟨ns_ne_nil e, n, hn, e⟩) (nsIdents_nodup items) [] List.Pairwise.nil trivial
    (fun q _ => itemsAt_nil q)
  have hrest : ∀ n ∈ items.filter (fun n => n.ns == none), n.isItem = true :=
    fun n hn => hi n ((List.mem_filter.mp hn).1)
  have hfilt : ∀ (f g : Node → Bool), (∀ n ∈ items, f n = g n) → items.filter f = items.filter g :=
    fun f g h => List.filter_congr h
  have harr : arrange items = NsBuf.toNodes (stacked items (nsIdents items) []) ++
      items.filter fun n => n.ns == none := rfl
  refine ⟨fun p => ?_, ?_, ?_⟩
  · rw [harr, leavesL_append, List.filter_append, List.map_append]
    have h1 := leavesL_filter [] p _ s1 s2
    simp only [List.nil_append] at h1
    rw [h1, s3, leavesL_items hrest]
    by_cases hp : p = []
    · subst hp
      have : ([] : QIdent) ∉ nsIdents items := fun h => by
        obtain ⟨n, _, e⟩ := (mem_nsIdents items []).mp h
        exact ns_ne_nil e rfl
      rw [if_neg this]
      simp only [itemsAt, List.nil_append, List.filter_map, List.map_map]
      simp only [Function.comp_def, beq_self_eq_true]
      rw [List.filter_filter]
      simp only [List.map_id']
      apply hfilt
      intro n hn
      have := ns_none_iff (hne n hn)
      by_cases e : n.ns = none
      · simp [e, this.mp e]
      · have e' : n.ident.dropLast ≠ [] := fun h => e (this.mpr h)
        rw [beq_eq_false_iff_ne.mpr e, beq_eq_false_iff_ne.mpr e']; rfl
    · have hr : ((items.filter (fun n => n.ns == none)).map fun n => (([] : List Ident), n)).filter
          (fun x => x.1 == p) = [] := by
        apply filter_eq_nil'
        intro x hx
        obtain ⟨n, _, rfl⟩ := List.mem_map.mp hx
        simpa using Ne.symm hp
      rw [hr, List.map_nil, List.append_nil]
      have hgoal : items.filter (fun n => n.ns == some p) = items.filter (fun n => n.ident.dropLast == p) := by
        apply hfilt
        intro n hn
        have := ns_eq_iff (hne n hn) p hp
        by_cases e : n.ns = some p
        · simp [e, this.mp e]
        · have e' : n.ident.dropLast ≠ p := fun h => e (this.mpr h)
          rw [beq_eq_false_iff_ne.mpr e, beq_eq_false_iff_ne.mpr e']
      by_cases hm : p ∈ nsIdents items
      · rw [if_pos hm, hgoal]
      · rw [if_neg hm, itemsAt_nil, ← hgoal]
        symm
        apply filter_eq_nil'
        intro n hn
        by_cases e : n.ns = some p
        · exact absurd ((mem_nsIdents items p).mpr ⟨n, hn, e⟩) hm
        · simpa using e
  · rw [harr, ProperL_append]
    exact ⟨proper_toNodes [] _ s2, ProperL_items hrest []⟩
  · rw [harr, modules_append, modules_items hrest, modules_toNodes s2, List.append_nil]
    exact keys_nodup s1

end Butte.Ir
