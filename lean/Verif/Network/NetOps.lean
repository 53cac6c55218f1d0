import Verif.Network.NetView

/-! What the operations of a network do to its view with unique ids. Used for C43. -/
namespace Repast.Network
open Repast.Dict

variable {A : Type} {d : Bool} {Q : Pend A} {r : Nat} {lr : Obj → Nat} {N : Net A}

theorem Entry.ends (h : N.g.Inv) {e : EKey × GEdge} (he : Entry r lr N e) : e.1.1 ∈ N.g.nodes ∧ e.1.2 ∈ N.g.nodes := slot_ends h he.1

theorem Entry.crosses {e : EKey × GEdge} (he : Entry r lr N e) : Crosses r lr e.1 := by
  rcases he.2 with ⟨h1, h2, -⟩ | ⟨h1, h2, -⟩
  · exact .inl ⟨h1, h2⟩
  · exact .inr ⟨h1, h2⟩

theorem Crosses.swap {k : EKey} (h : Crosses r lr k) : Crosses r lr (k.2, k.1) := by
  rcases h with ⟨h1, h2⟩ | ⟨h1, h2⟩
  · exact .inr ⟨h2, h1⟩
  · exact .inl ⟨h2, h1⟩

theorem Crosses.same {a b u v : Obj} (hs : Same d a b u v) (h : Crosses r lr (a, b)) : Crosses r lr (u, v) := by
  rcases hs with ⟨rfl, rfl⟩ | ⟨-, rfl, rfl⟩
  · exact h
  · exact h.swap

theorem Crosses.ne {u v : Obj} (h : Crosses r lr (u, v)) : u ≠ v := by
  rintro rfl
  rcases h with ⟨h1, h2⟩ | ⟨h1, h2⟩
  · exact h2 h1
  · exact h1 h2

theorem NetOk.keyEnds (h : NetOk d Q r lr N) {k : EKey} (hk : k ∈ Assoc.keys N.newEdges ∨ k ∈ Assoc.keys N.ghosted) : k.1 ∈ N.g.nodes ∧ k.2 ∈ N.g.nodes := by
  rcases hk with hk | hk
  · obtain ⟨e, he, rfl⟩ := List.mem_map.1 hk
    exact (h.new e he).ends h.inv
  · obtain ⟨e, he, rfl⟩ := List.mem_map.1 hk
    exact (h.syn e he).ends h.inv

theorem NetOk.keySlot (h : NetOk d Q r lr N) {k : EKey} (hk : k ∈ Assoc.keys N.newEdges ∨ k ∈ Assoc.keys N.ghosted) : ∃ i, N.g.slot k.1 k.2 = some i := by
  rcases hk with hk | hk
  · obtain ⟨e, he, rfl⟩ := List.mem_map.1 hk
    exact ⟨_, (h.new e he).1⟩
  · obtain ⟨e, he, rfl⟩ := List.mem_map.1 hk
    exact ⟨_, (h.syn e he).1⟩

theorem NetOk.keyCrosses (h : NetOk d Q r lr N) {k : EKey} (hk : k ∈ Assoc.keys N.newEdges ∨ k ∈ Assoc.keys N.ghosted) : Crosses r lr k := by
  rcases hk with hk | hk
  · obtain ⟨e, he, rfl⟩ := List.mem_map.1 hk
    exact (h.new e he).crosses
  · obtain ⟨e, he, rfl⟩ := List.mem_map.1 hk
    exact (h.syn e he).crosses

theorem uu_inj {g : Graph A} (hu : ∀ a ∈ g.nodes, ∀ b ∈ g.nodes, a.uid = b.uid → a = b) {k j : EKey} (hk : k.1 ∈ g.nodes ∧ k.2 ∈ g.nodes) (hj : j.1 ∈ g.nodes ∧ j.2 ∈ g.nodes)
    (e : uu k = uu j) : k = j := by
  unfold uu at e
  simp only [Prod.mk.injEq] at e
  exact Prod.ext (hu _ hk.1 _ hj.1 e.1) (hu _ hk.2 _ hj.2 e.2)

theorem mem_uu {g : Graph A} (hu : ∀ a ∈ g.nodes, ∀ b ∈ g.nodes, a.uid = b.uid → a = b) {l : List EKey} (hl : ∀ k ∈ l, k.1 ∈ g.nodes ∧ k.2 ∈ g.nodes) {k : EKey}
    (hk : k.1 ∈ g.nodes ∧ k.2 ∈ g.nodes) : uu k ∈ l.map uu ↔ k ∈ l := by
  constructor
  · intro h
    obtain ⟨j, hj, e⟩ := List.mem_map.1 h
    rw [← uu_inj hu (hl j hj) hk e]; exact hj
  · exact List.mem_map_of_mem

theorem filter_uu {g : Graph A} (hu : ∀ a ∈ g.nodes, ∀ b ∈ g.nodes, a.uid = b.uid → a = b) {l : List EKey} (hl : ∀ k ∈ l, k.1 ∈ g.nodes ∧ k.2 ∈ g.nodes) {K : EKey}
    (hK : K.1 ∈ g.nodes ∧ K.2 ∈ g.nodes) : (l.filter (fun k => decide (k ≠ K))).map uu = (l.map uu).filter (fun p => decide (p ≠ uu K)) := by
  rw [List.filter_map]
  congr 1
  apply List.filter_congr
  intro k hk
  simp only [Function.comp]
  congr 1
  apply propext
  constructor
  · intro h e; exact h (uu_inj hu (hl k hk) hK e)
  · rintro h rfl; exact h rfl

theorem ins_uu {g : Graph A} (hu : ∀ a ∈ g.nodes, ∀ b ∈ g.nodes, a.uid = b.uid → a = b) {l : List EKey} (hl : ∀ k ∈ l, k.1 ∈ g.nodes ∧ k.2 ∈ g.nodes) {K : EKey}
    (hK : K.1 ∈ g.nodes ∧ K.2 ∈ g.nodes) : (if K ∈ l then l else l ++ [K]).map uu = ins (l.map uu) (uu K) := by
  unfold ins
  by_cases h : K ∈ l
  · rw [if_pos h, if_pos ((mem_uu hu hl hK).2 h)]
  · rw [if_neg h, if_neg (fun c => h ((mem_uu hu hl hK).1 c)), List.map_append]; rfl

theorem set_uu {β : Type} {g : Graph A} (hu : ∀ a ∈ g.nodes, ∀ b ∈ g.nodes, a.uid = b.uid → a = b) {m : Assoc.Assoc EKey β} (hl : ∀ k ∈ Assoc.keys m, k.1 ∈ g.nodes ∧ k.2 ∈ g.nodes)
    {K : EKey} (hK : K.1 ∈ g.nodes ∧ K.2 ∈ g.nodes) (x : β) : (Assoc.keys (Assoc.set m K x)).map uu = ins ((Assoc.keys m).map uu) (uu K) := by
  rw [Assoc.keys_set]
  by_cases h : K ∈ Assoc.keys m
  · rw [if_pos h, ins, if_pos ((mem_uu hu hl hK).2 h)]
  · rw [if_neg h, ins, if_neg (fun c => h ((mem_uu hu hl hK).1 c)), List.map_append]; rfl

/-- The ranks of other objects do not matter. -/
theorem NetOk.congr (h : NetOk d Q r lr N) {lr' : Obj → Nat} (hl : ∀ o ∈ N.g.nodes, lr' o = lr o) : NetOk d Q r lr' N := by
  have hE : ∀ e, Entry r lr N e → Entry r lr' N e := by
    intro e he
    have := he.ends h.inv
    refine ⟨he.1, ?_⟩
    rw [hl _ this.1, hl _ this.2]; exact he.2
  exact { h with
    new := fun e he => hE e (h.new e he)
    syn := fun e he => hE e (h.syn e he)
    rem := by
      intro e he
      obtain ⟨h1, h2, h3, h4, h5⟩ := h.rem e he
      refine ⟨h1, h2, ?_, ?_, h5⟩
      · unfold Crosses; rw [hl _ h1, hl _ h2]; exact h3
      · rw [hl _ h2]; exact h4 }

theorem NetOk.empty (d : Bool) (mv : Nat → Prop) (r : Nat) (lr : Obj → Nat) : NetOk d ⟨mv, fun _ => false, [], [], []⟩ r lr (Net.empty d : Net A) where
  inv := Graph.Inv.empty d
  dir := rfl
  moved := rfl
  noLonger := rfl
  toRef := rfl
  uniq := by simp [Net.empty, Graph.empty]
  keys := keysOk_empty d
  sym := by simp [Net.empty]
  hasKey := (localOk_empty d).has
  new := by simp [Net.empty]
  newOk := Assoc.Ok.nil
  syn := by simp [Net.empty]
  synOk := Assoc.Ok.nil
  upd := by simp [Net.empty]
  rem := by simp [Net.empty]
  remOk := Assoc.Ok.nil
  canon := by simp [Net.empty, Assoc.keys]

/-! ### Nodes -/

theorem add_old {o : Obj} (ho : o ∈ N.g.nodes) : N.add o = N := by
  unfold Net.add Graph.addNode; rw [if_pos ho]

theorem slot_add (N : Net A) (o u v : Obj) : (N.add o).g.slot u v = N.g.slot u v := slot_addNode N.g o u v

theorem NetOk.add (h : NetOk d Q r lr N) {o : Obj} (ho : N.v.has o.uid = false) : NetOk d Q r lr (N.add o) := by
  have hu := h.uniq
  have hno : ∀ x ∈ N.g.nodes, x.uid ≠ o.uid := by
    intro x hx e
    have : N.v.has o.uid = true := (has_iff hu _).2 ⟨x, hx, e⟩
    rw [ho] at this; cases this
  have hm : ∀ x, x ∈ (N.add o).g.nodes ↔ x ∈ N.g.nodes ∨ x = o := mem_addNode N.g o
  have hE : ∀ e, Entry r lr N e → Entry r lr (N.add o) e := fun e he => ⟨by rw [slot_add]; exact he.1, he.2⟩
  exact {
    inv := h.inv.addNode o
    dir := by rw [← h.dir]; exact (addNode_edges N.g o).2.2
    moved := h.moved
    noLonger := h.noLonger
    toRef := h.toRef
    uniq := by
      intro a ha b hb e
      rcases (hm a).1 ha with h1 | h1 <;> rcases (hm b).1 hb with h2 | h2
      · exact hu a h1 b h2 e
      · subst h2; exact absurd e (hno a h1)
      · subst h1; exact absurd e.symm (hno b h2)
      · rw [h1, h2]
    keys := h.keys
    sym := h.sym
    hasKey := by
      intro hd u v hh
      refine h.hasKey hd u v ?_
      unfold Graph.hasEdge at hh ⊢
      rwa [slot_add] at hh
    new := fun e he => hE e (h.new e he)
    newOk := h.newOk
    syn := fun e he => hE e (h.syn e he)
    synOk := h.synOk
    upd := h.upd
    rem := by
      intro e he
      obtain ⟨h1, h2, h3, h4, h5⟩ := h.rem e he
      exact ⟨(hm _).2 (.inl h1), (hm _).2 (.inl h2), h3, h4, by rw [slot_add]; exact h5⟩
    remOk := h.remOk
    canon := by
      intro k hk key hkey
      refine h.canon k hk key ?_
      unfold Net.edgeKey at hkey ⊢
      rwa [show (N.add o).g.directed = N.g.directed from (addNode_edges N.g o).2.2] at hkey }

theorem add_v (h : NetOk d Q r lr N) {o : Obj} (ho : N.v.has o.uid = false) : (N.add o).v = { N.v with has := fun u => N.v.has u || decide (u = o.uid) } := by
  have h' := h.add ho
  have hm : ∀ x, x ∈ (N.add o).g.nodes ↔ x ∈ N.g.nodes ∨ x = o := mem_addNode N.g o
  unfold Net.v
  congr 1
  · funext u
    rw [Bool.eq_iff_iff, has_iff h'.uniq, Bool.or_eq_true, decide_eq_true_eq, has_iff h.uniq]
    constructor
    · rintro ⟨x, hx, rfl⟩
      rcases (hm x).1 hx with hx | rfl
      · exact .inl ⟨x, hx, rfl⟩
      · exact .inr rfl
    · rintro (⟨x, hx, rfl⟩ | rfl)
      · exact ⟨x, (hm x).2 (.inl hx), rfl⟩
      · exact ⟨o, (hm o).2 (.inr rfl), rfl⟩
  · funext u v
    apply option_ext'
    intro a
    rw [e_some h'.inv h'.uniq, e_some h.inv h.uniq]
    have : ∀ x y, (N.add o).g.attr x y = N.g.attr x y := attr_addNode N.g o
    simp only [this]

/-! ### Adding edges -/

theorem slot_keep {g : Graph A} (h : g.Inv) (a b : Obj) (at_ : Attr A) {x y : Obj} {i : Nat} (hs : g.slot x y = some i) : (g.addEdge a b at_).slot x y = some i := by
  rw [slot_addEdge h]
  split
  · rename_i e
    rw [slot_same h e] at hs
    rw [hs]; rfl
  · exact hs

theorem put_fields (N : Net A) (u v : Obj) (a : Attr A) : (N.put u v a).newEdges = N.newEdges ∧ (N.put u v a).ghosted = N.ghosted ∧ (N.put u v a).toUpdate = N.toUpdate ∧
    (N.put u v a).toRemove = N.toRemove ∧ (N.put u v a).movedEdges = N.movedEdges ∧ (N.put u v a).noLonger = N.noLonger ∧ (N.put u v a).toRef = N.toRef := by
  unfold Net.put Net.addKey; split <;> simp

theorem put_keys (N : Net A) (u v : Obj) (a : Attr A) (k : EKey) : Assoc.get (N.put u v a).keys k =
    if N.g.directed = false ∧ (k = (u, v) ∨ k = (v, u)) then some (u, v) else Assoc.get N.keys k := by
  unfold Net.put Net.addKey
  rw [addEdge_directed]
  cases N.g.directed with
  | true => simp
  | false =>
    simp only [Bool.false_eq_true, if_false, Assoc.get_set, true_and]
    by_cases h1 : k = (u, v)
    · subst h1; simp
    · by_cases h2 : k = (v, u)
      · subst h2; simp
      · rw [if_neg (fun e => h2 e.symm), if_neg (fun e => h1 e.symm), if_neg (by simp [h1, h2])]

/-- The graph part of `put`. -/
theorem NetOk.put (h : NetOk d Q r lr N) {u v : Obj} (hu : u ∈ N.g.nodes) (hv : v ∈ N.g.nodes) (a : Attr A)
    (hno : ∀ k, k ∈ Assoc.keys N.newEdges ∨ k ∈ Assoc.keys N.ghosted → Same d u v k.1 k.2 → k = (u, v))
    (hrem : ∀ k ∈ Assoc.keys N.toRemove, ¬ Same d u v k.1 k.2) : NetOk d Q r lr (N.put u v a) := by
  obtain ⟨f1, f2, f3, f4, f5, f6, f7⟩ := put_fields N u v a
  have hg := put_g N u v a
  have hm : ∀ x, x ∈ (N.put u v a).g.nodes ↔ x ∈ N.g.nodes := by
    intro x; rw [hg, mem_addEdge]
    constructor
    · rintro (hx | rfl | rfl) <;> assumption
    · exact .inl
  have hE : ∀ e, Entry r lr N e → Entry r lr (N.put u v a) e := fun e he => ⟨by rw [hg]; exact slot_keep h.inv u v a he.1, he.2⟩
  exact {
    inv := by rw [hg]; exact h.inv.addEdge u v a
    dir := by rw [hg, addEdge_directed, h.dir]
    moved := f5 ▸ h.moved
    noLonger := f6 ▸ h.noLonger
    toRef := f7 ▸ h.toRef
    uniq := by intro x hx y hy; exact h.uniq x ((hm x).1 hx) y ((hm y).1 hy)
    keys := put_keysOk h.keys u v a
    sym := by
      intro x y
      rw [put_keys, put_keys, h.sym x y]
      have : ((x, y) = (u, v) ∨ (x, y) = (v, u)) ↔ ((y, x) = (u, v) ∨ (y, x) = (v, u)) := by
        simp only [Prod.mk.injEq]; grind
      simp only [this]
    hasKey := by
      intro hd x y hh
      rw [put_keys]
      split
      · rfl
      · rename_i hn
        refine h.hasKey hd x y ?_
        rw [hasEdge_iff, hg, attr_addEdge h.inv, if_neg, ← hasEdge_iff] at hh
        · exact hh
        · rintro (⟨rfl, rfl⟩ | ⟨-, rfl, rfl⟩)
          · exact hn ⟨h.dir.trans hd, .inl rfl⟩
          · exact hn ⟨h.dir.trans hd, .inr rfl⟩
    new := by rw [f1]; exact fun e he => hE e (h.new e he)
    newOk := f1 ▸ h.newOk
    syn := by rw [f2]; exact fun e he => hE e (h.syn e he)
    synOk := f2 ▸ h.synOk
    upd := by rw [f1, f2, f3]; exact h.upd
    rem := by
      rw [f4]
      intro e he
      obtain ⟨h1, h2, h3, h4, h5⟩ := h.rem e he
      refine ⟨(hm _).2 h1, (hm _).2 h2, h3, h4, ?_⟩
      rw [hg, slot_addEdge h.inv, if_neg, h5]
      rw [h.dir]
      exact hrem e.1 (List.mem_map_of_mem he)
    remOk := f4 ▸ h.remOk
    canon := by
      rw [f1, f2]
      intro k hk key hkey
      unfold Net.edgeKey at hkey
      rw [hg, addEdge_directed] at hkey
      by_cases hs : Same d u v k.1 k.2
      · have hkuv := hno k hk hs
        subst hkuv
        have : key = (u, v) := by
          cases hd : N.g.directed with
          | true => rw [hd] at hkey; simpa using hkey.symm
          | false =>
            rw [hd] at hkey
            simp only [Bool.false_eq_true, if_false] at hkey
            rw [put_keys, if_pos ⟨hd, .inl rfl⟩] at hkey
            simpa using hkey.symm
        rw [this]; exact hk
      · refine h.canon k hk key ?_
        unfold Net.edgeKey
        cases hd : N.g.directed with
        | true => rw [hd] at hkey; exact hkey
        | false =>
          rw [hd] at hkey
          simp only [Bool.false_eq_true, if_false] at hkey ⊢
          rw [put_keys, if_neg] at hkey
          · exact hkey
          · rintro ⟨-, rfl | rfl⟩
            · exact hs (.inl ⟨rfl, rfl⟩)
            · exact hs (.inr ⟨by rw [← h.dir]; exact hd, rfl, rfl⟩) }

theorem put_v (h : NetOk d Q r lr N) {u v : Obj} (hu : u ∈ N.g.nodes) (hv : v ∈ N.g.nodes) (a : Attr A) :
    (N.put u v a).v = { N.v with edge := fun x y => if SameN d u.uid v.uid x y then some (merge ((N.v.edge x y).getD []) a) else N.v.edge x y } := by
  obtain ⟨f1, f2, f3, f4, f5, f6, f7⟩ := put_fields N u v a
  have hg := put_g N u v a
  have hm : ∀ x, x ∈ (N.put u v a).g.nodes ↔ x ∈ N.g.nodes := by
    intro x; rw [hg, mem_addEdge]
    constructor
    · rintro (hx | rfl | rfl) <;> assumption
    · exact .inl
  unfold Net.v
  rw [f1, f2, f3, f4]
  congr 1
  · funext x; rw [node_congr h.uniq hm]
  · funext x y
    exact e_congr h.uniq hm hu hv (fun o => some (merge (o.getD []) a)) (by intro x y; rw [hg, attr_addEdge h.inv, h.dir]) x y

theorem addEdge_cross {u v : Obj} (hu : u ∈ N.g.nodes) (hv : v ∈ N.g.nodes) (a : Attr A) (hc : Crosses r lr (u, v)) :
    ∃ loc gho, N.addEdge r lr u v a = (N.put u v a).noteEdge u v loc gho ∧
      (lr u = r ∧ lr v ≠ r ∧ loc = u ∧ gho = v ∨ lr u ≠ r ∧ lr v = r ∧ loc = v ∧ gho = u) := by
  unfold Net.addEdge
  rcases hc with ⟨h1, h2⟩ | ⟨h1, h2⟩
  · refine ⟨u, v, ?_, .inl ⟨h1, h2, rfl, rfl⟩⟩
    rw [if_pos ⟨h1, h2⟩]
    unfold Net.noteRef; rw [if_pos hv]
  · refine ⟨v, u, ?_, .inr ⟨h1, h2, rfl, rfl⟩⟩
    rw [if_neg (by rintro ⟨h, -⟩; exact h1 h), if_pos ⟨h1, h2⟩]
    unfold Net.noteRef; rw [if_pos hu]

theorem addEdge_plain {u v : Obj} (a : Attr A) (hc : ¬ Crosses r lr (u, v)) : N.addEdge r lr u v a = N.put u v a := by
  unfold Net.addEdge
  rw [if_neg (fun h => hc (.inl h)), if_neg (fun h => hc (.inr h))]

theorem Assoc.mem_set {κ α : Type} [DecidableEq κ] {m : Assoc.Assoc κ α} {k : κ} {v : α} {e : κ × α} (h : e ∈ Assoc.set m k v) : e = (k, v) ∨ e ∈ m ∧ e.1 ≠ k ∨ e ∈ m := by
  induction m with
  | nil => simp [Assoc.set] at h; exact .inl h
  | cons x m ih =>
    simp only [Assoc.set] at h
    split at h
    · rcases List.mem_cons.1 h with rfl | h
      · exact .inl rfl
      · exact .inr (.inr (List.mem_cons_of_mem _ h))
    · rcases List.mem_cons.1 h with rfl | h
      · exact .inr (.inr (by simp))
      · rcases ih h with h | h | h
        · exact .inl h
        · exact .inr (.inr (List.mem_cons_of_mem _ h.1))
        · exact .inr (.inr (List.mem_cons_of_mem _ h))

theorem Assoc.del_self {κ α : Type} [DecidableEq κ] {m : Assoc.Assoc κ α} {k : κ} (h : k ∉ Assoc.keys m) : Assoc.del m k = m := by
  unfold Assoc.del
  rw [List.filter_eq_self]
  intro e he
  simp only [decide_eq_true_eq]
  rintro rfl
  exact h (List.mem_map_of_mem he)

theorem NetOk.addEdge (h : NetOk d Q r lr N) {u v : Obj} (hu : u ∈ N.g.nodes) (hv : v ∈ N.g.nodes) (a : Attr A)
    (hrem : ∀ k ∈ Assoc.keys N.toRemove, ¬ Same d u v k.1 k.2) : NetOk d Q r lr (N.addEdge r lr u v a) ∧
    (N.addEdge r lr u v a).v = { N.v with
      edge := fun x y => if SameN d u.uid v.uid x y then some (merge ((N.v.edge x y).getD []) a) else N.v.edge x y
      new := if crosses r lr u v then ins N.v.new (u.uid, v.uid) else N.v.new } := by
  by_cases hc : Crosses r lr (u, v)
  · obtain ⟨loc, gho, he, hlg⟩ := addEdge_cross hu hv a hc
    have hdel : (u, v) ∉ Assoc.keys N.toRemove := fun hk => hrem _ hk (.inl ⟨rfl, rfl⟩)
    obtain ⟨f1, f2, f3, f4, f5, f6, f7⟩ := put_fields N u v a
    have hg := put_g N u v a
    have hm : ∀ x, x ∈ (N.put u v a).g.nodes ↔ x ∈ N.g.nodes := by
      intro x; rw [hg, mem_addEdge]
      constructor
      · rintro (hx | rfl | rfl) <;> assumption
      · exact .inl
    obtain ⟨i, hi⟩ : ∃ i, (N.put u v a).g.slot u v = some i := by
      rw [hg, slot_addEdge h.inv, if_pos (.inl ⟨rfl, rfl⟩)]; exact ⟨_, rfl⟩
    -- the result
    have hN' : N.addEdge r lr u v a = { N.put u v a with newEdges := Assoc.set N.newEdges (u, v) ⟨loc, gho, i⟩ } := by
      rw [he]
      unfold Net.noteEdge
      rw [hi, f1, f4, Assoc.del_self hdel]
      simp only [Option.getD_some]
      rw [← f4]
    have hE : ∀ e, Entry r lr N e → Entry r lr (N.put u v a) e := fun e he => ⟨by rw [hg]; exact slot_keep h.inv u v a he.1, he.2⟩
    have hsub : ∀ k, k ∈ Assoc.keys N.newEdges → k ∈ Assoc.keys (Assoc.set N.newEdges (u, v) ⟨loc, gho, i⟩) := by
      intro k hk; rw [Assoc.keys_set]; split
      · exact hk
      · simp [hk]
    have huv : (u, v) ∈ Assoc.keys (Assoc.set N.newEdges (u, v) ⟨loc, gho, i⟩) := by
      rw [Assoc.keys_set]; split
      · assumption
      · simp
    rw [hN']
    constructor
    · exact {
        inv := by show (N.put u v a).g.Inv; rw [hg]; exact h.inv.addEdge u v a
        dir := by show (N.put u v a).g.directed = d; rw [hg, addEdge_directed, h.dir]
        moved := f5 ▸ h.moved
        noLonger := f6 ▸ h.noLonger
        toRef := f7 ▸ h.toRef
        uniq := by intro x hx y hy; exact h.uniq x ((hm x).1 hx) y ((hm y).1 hy)
        keys := put_keysOk h.keys u v a
        sym := by
          intro x y
          show Assoc.get (N.put u v a).keys (x, y) = Assoc.get (N.put u v a).keys (y, x)
          rw [put_keys, put_keys, h.sym x y]
          have : ((x, y) = (u, v) ∨ (x, y) = (v, u)) ↔ ((y, x) = (u, v) ∨ (y, x) = (v, u)) := by
            simp only [Prod.mk.injEq]; grind
          simp only [this]
        hasKey := by
          intro hd x y hh
          show (Assoc.get (N.put u v a).keys (x, y)).isSome = true
          rw [put_keys]
          split
          · rfl
          · rename_i hn
            refine h.hasKey hd x y ?_
            have hh : (N.put u v a).g.hasEdge x y = true := hh
            rw [hasEdge_iff, hg, attr_addEdge h.inv, if_neg, ← hasEdge_iff] at hh
            · exact hh
            · rintro (⟨rfl, rfl⟩ | ⟨-, rfl, rfl⟩)
              · exact hn ⟨h.dir.trans hd, .inl rfl⟩
              · exact hn ⟨h.dir.trans hd, .inr rfl⟩
        new := by
          intro e hm'
          have : Entry r lr (N.put u v a) e := by
            rcases Assoc.mem_set hm' with rfl | h' | h'
            · exact ⟨hi, hlg⟩
            · exact hE e (h.new e h'.1)
            · exact hE e (h.new e h')
          exact this
        newOk := h.newOk.set _ _
        syn := by
          intro e he'
          have he' : e ∈ (N.put u v a).ghosted := he'
          rw [f2] at he'
          exact hE e (h.syn e he')
        synOk := f2 ▸ h.synOk
        upd := by
          intro k hk
          have hk : k ∈ (N.put u v a).toUpdate := hk
          rw [f3] at hk
          show k ∈ Assoc.keys (Assoc.set N.newEdges (u, v) ⟨loc, gho, i⟩) ∨ k ∈ Assoc.keys (N.put u v a).ghosted
          rw [f2]
          exact (h.upd k hk).imp (hsub k) id
        rem := by
          intro e he'
          have he' : e ∈ (N.put u v a).toRemove := he'
          rw [f4] at he'
          obtain ⟨h1, h2, h3, h4, h5⟩ := h.rem e he'
          refine ⟨(hm _).2 h1, (hm _).2 h2, h3, h4, ?_⟩
          show (N.put u v a).g.slot _ _ = none
          rw [hg, slot_addEdge h.inv, if_neg, h5]
          rw [h.dir]
          exact hrem e.1 (List.mem_map_of_mem he')
        remOk := f4 ▸ h.remOk
        canon := by
          intro k hk key hkey
          show key ∈ Assoc.keys (Assoc.set N.newEdges (u, v) ⟨loc, gho, i⟩) ∨ key ∈ Assoc.keys (N.put u v a).ghosted
          have hk : k ∈ Assoc.keys (Assoc.set N.newEdges (u, v) ⟨loc, gho, i⟩) ∨ k ∈ Assoc.keys (N.put u v a).ghosted := hk
          rw [f2] at hk ⊢
          have hkey : (N.put u v a).edgeKey k = some key := hkey
          have hk : k = (u, v) ∨ (k ∈ Assoc.keys N.newEdges ∨ k ∈ Assoc.keys N.ghosted) := by
            rcases hk with hk | hk
            · rw [Assoc.keys_set] at hk
              split at hk
              · exact .inr (.inl hk)
              · rcases List.mem_append.1 hk with hk | hk
                · exact .inr (.inl hk)
                · exact .inl (by simpa using hk)
            · exact .inr (.inr hk)
          unfold Net.edgeKey at hkey
          rw [hg, addEdge_directed] at hkey
          by_cases hs : k = (u, v) ∨ N.g.directed = false ∧ k = (v, u)
          · have : key = (u, v) := by
              cases hd : N.g.directed with
              | true =>
                rw [hd] at hkey hs
                simp only [if_true, Option.some.injEq] at hkey
                rcases hs with hs | hs
                · rw [← hkey, hs]
                · exact absurd hs.1 (by simp)
              | false =>
                rw [hd] at hkey
                simp only [Bool.false_eq_true, if_false] at hkey
                rw [put_keys, if_pos ⟨hd, hs.imp id (·.2)⟩] at hkey
                simpa using hkey.symm
            rw [this]; exact .inl huv
          · have hk2 := hk.resolve_left (fun e => hs (.inl e))
            refine (h.canon k hk2 key ?_).imp (hsub key) id
            unfold Net.edgeKey
            cases hd : N.g.directed with
            | true => rw [hd] at hkey; exact hkey
            | false =>
              rw [hd] at hkey hs
              simp only [Bool.false_eq_true, if_false] at hkey ⊢
              rw [put_keys, if_neg] at hkey
              · exact hkey
              · rintro ⟨-, h1 | h1⟩
                · exact hs (.inl h1)
                · exact hs (.inr ⟨rfl, h1⟩) }
    · have hv' := put_v h hu hv a
      have : ({ N.put u v a with newEdges := Assoc.set N.newEdges (u, v) ⟨loc, gho, i⟩ } : Net A).v =
          { (N.put u v a).v with new := (Assoc.keys (Assoc.set N.newEdges (u, v) ⟨loc, gho, i⟩)).map uu } := rfl
      rw [this, hv', if_pos ((crosses_iff r lr u v).2 hc), set_uu (K := (u, v)) h.uniq (fun k hk => h.keyEnds (.inl hk)) ⟨hu, hv⟩]
      rfl
  · rw [addEdge_plain a hc]
    refine ⟨h.put hu hv a ?_ hrem, ?_⟩
    · intro k hk hs
      exact absurd ((h.keyCrosses hk).same hs.symm) hc
    · rw [put_v h hu hv a, if_neg (fun hh => hc ((crosses_iff r lr u v).1 hh))]

/-! ### Changing attributes -/

theorem modify_ok (h : NetOk d Q r lr N) (i : Nat) (a : Attr A) : NetOk d Q r lr { N with g := N.g.modify i a } where
  inv := h.inv.modify i a
  dir := h.dir
  moved := h.moved
  noLonger := h.noLonger
  toRef := h.toRef
  uniq := h.uniq
  keys := h.keys
  sym := h.sym
  hasKey := h.hasKey
  new := h.new
  newOk := h.newOk
  syn := h.syn
  synOk := h.synOk
  upd := h.upd
  rem := h.rem
  remOk := h.remOk
  canon := h.canon

theorem edgeKey_some (h : NetOk d Q r lr N) {u v : Obj} (he : N.g.hasEdge u v = true) : ∃ key, N.edgeKey (u, v) = some key := by
  unfold Net.edgeKey
  cases hd : N.g.directed with
  | true => exact ⟨_, rfl⟩
  | false => simpa using Option.isSome_iff_exists.1 (h.hasKey (by rw [← h.dir]; exact hd) u v he)

theorem edgeKey_same (h : NetOk d Q r lr N) {u v x y : Obj} (hs : Same d u v x y) (hd : d = false) : N.edgeKey (x, y) = N.edgeKey (u, v) := by
  unfold Net.edgeKey
  rw [h.dir, hd]
  simp only [Bool.false_eq_true, if_false]
  rcases hs with ⟨rfl, rfl⟩ | ⟨-, rfl, rfl⟩
  · rfl
  · exact h.sym _ _

/-- The canonical key of an edge that this rank has written. -/
theorem canon_mem (h : NetOk d Q r lr N) {u v : Obj} {key : EKey} (hk : N.edgeKey (u, v) = some key)
    (hw : ∃ k, (k ∈ Assoc.keys N.newEdges ∨ k ∈ Assoc.keys N.ghosted) ∧ Same d u v k.1 k.2) : key ∈ Assoc.keys N.newEdges ∨ key ∈ Assoc.keys N.ghosted := by
  obtain ⟨k, hk', hs⟩ := hw
  refine h.canon k hk' key ?_
  cases d with
  | true =>
    rcases hs with ⟨rfl, rfl⟩ | ⟨e, -⟩
    · exact hk
    · cases e
  | false => rw [← hk]; exact edgeKey_same h hs rfl

theorem NetOk.updateEdge (h : NetOk d Q r lr N) {u v : Obj} (he : N.g.hasEdge u v = true) (a : Attr A)
    (hw : Crosses r lr (u, v) → ∃ k, (k ∈ Assoc.keys N.newEdges ∨ k ∈ Assoc.keys N.ghosted) ∧ Same d u v k.1 k.2) :
    ∃ N' key, N.updateEdge r lr u v a = some N' ∧ NetOk d Q r lr N' ∧ SameN d u.uid v.uid key.1 key.2 ∧ (∀ o, o ∈ N'.g.nodes ↔ o ∈ N.g.nodes) ∧
      N'.v = { N.v with
        edge := fun x y => if SameN d u.uid v.uid x y then (N.v.edge x y).map (merge · a) else N.v.edge x y
        upd := if crosses r lr u v then ins N.v.upd key else N.v.upd } := by
  obtain ⟨key, hkey⟩ := edgeKey_some h he
  have hsame := key_same h.keys hkey
  rw [h.dir] at hsame
  obtain ⟨i, hi⟩ := Option.isSome_iff_exists.1 he
  have hi2 : N.g.slot key.1 key.2 = some i := by
    rw [← slot_same h.inv (by rw [h.dir]; exact hsame)]; exact hi
  have hn := slot_ends h.inv hi
  have hn2 := slot_ends h.inv hi2
  -- the attributes
  obtain ⟨N1, h1, hok1, hnod1, hv1, hf1⟩ : ∃ N1, N.setAttrs key a = some N1 ∧ NetOk d Q r lr N1 ∧ N1.g.nodes = N.g.nodes ∧
      N1.v = { N.v with edge := fun x y => if SameN d u.uid v.uid x y then (N.v.edge x y).map (merge · a) else N.v.edge x y } ∧
      N1.toUpdate = N.toUpdate ∧ N1.newEdges = N.newEdges ∧ N1.ghosted = N.ghosted := by
    by_cases ha : a = []
    · subst ha
      refine ⟨N, by simp [Net.setAttrs], h, rfl, ?_, rfl, rfl, rfl⟩
      simp only [merge_nil, Option.map_id']
      simp
    · refine ⟨{ N with g := N.g.modify i a }, ?_, modify_ok h i a, rfl, ?_, rfl, rfl, rfl⟩
      · have : a.isEmpty = false := by simpa using ha
        simp [Net.setAttrs, this, hi2, Graph.modify]
      · have : ∀ x y, (N.g.modify i a).attr x y = if Same d u v x y then (N.g.attr x y).map (merge · a) else N.g.attr x y := by
          intro x y
          rw [attr_modify h.inv hi, h.dir]
          by_cases hs : Same d u v x y
          · rw [if_pos hs, if_pos hs]
            unfold Graph.attr
            rw [slot_same h.inv (by rw [h.dir]; exact hs), hi]; rfl
          · rw [if_neg hs, if_neg hs]
        have hcg := e_congr (N := N) (N' := { N with g := N.g.modify i a }) h.uniq (fun _ => Iff.rfl) hn.1 hn.2 (Option.map (merge · a)) this
        unfold Net.v
        congr 1
        funext x y
        exact hcg x y
  refine ⟨if crosses r lr u v then { N1 with toUpdate := if key ∈ N1.toUpdate then N1.toUpdate else N1.toUpdate ++ [key] } else N1, uu key, ?_, ?_, ?_, ?_, ?_⟩
  · simp [Net.updateEdge, hkey, h1]
  · split
    · rename_i hc
      refine { hok1 with upd := ?_ }
      intro k hk
      have hk : k ∈ (if key ∈ N1.toUpdate then N1.toUpdate else N1.toUpdate ++ [key]) := hk
      have hk : k ∈ N1.toUpdate ∨ k = key := by
        split at hk
        · exact .inl hk
        · simpa using hk
      rcases hk with hk | rfl
      · exact hok1.upd k hk
      · show k ∈ Assoc.keys N1.newEdges ∨ k ∈ Assoc.keys N1.ghosted
        rw [hf1.2.1, hf1.2.2]
        exact canon_mem h hkey (hw ((crosses_iff r lr u v).1 hc))
    · exact hok1
  · exact (sameN_uid h.uniq hn.1 hn.2 hn2.1 hn2.2).2 hsame.symm
  · intro o; split <;> rw [hnod1]
  · by_cases hc : crosses r lr u v = true
    · rw [if_pos hc, if_pos hc]
      have hl : ∀ k ∈ N.toUpdate, k.1 ∈ N.g.nodes ∧ k.2 ∈ N.g.nodes := fun k hk => h.keyEnds (h.upd k hk)
      have : ({ N1 with toUpdate := if key ∈ N1.toUpdate then N1.toUpdate else N1.toUpdate ++ [key] } : Net A).v =
          { N1.v with upd := (if key ∈ N1.toUpdate then N1.toUpdate else N1.toUpdate ++ [key]).map uu } := rfl
      rw [this, hv1, hf1.1, ins_uu h.uniq hl hn2]
      rfl
    · rw [if_neg hc, if_neg hc, hv1]

/-! ### Removing edges -/

theorem removeKey_ok {N : Net A} (hd : N.g.directed = false → ∀ u v, Assoc.get N.keys (u, v) = Assoc.get N.keys (v, u)) {u v : Obj}
    (hk : N.g.directed = false → (Assoc.get N.keys (u, v)).isSome = true) (hne : N.g.directed = true ∨ u ≠ v) :
    ∃ ks, N.removeKey u v = some { N with keys := ks } ∧ ∀ k, Assoc.get ks k = if N.g.directed = false ∧ (k = (u, v) ∨ k = (v, u)) then none else Assoc.get N.keys k := by
  unfold Net.removeKey
  cases hdd : N.g.directed with
  | true => exact ⟨N.keys, by simp, by simp⟩
  | false =>
    have hne : u ≠ v := by
      rcases hne with h | h
      · rw [hdd] at h; cases h
      · exact h
    have h1 := hk hdd
    have h2 : (Assoc.get N.keys (v, u)).isSome = true := by rw [← hd hdd u v]; exact h1
    have hne' : (u, v) ≠ (v, u) := by intro e; simp only [Prod.mk.injEq] at e; exact hne e.1
    refine ⟨Assoc.del (Assoc.del N.keys (u, v)) (v, u), by simp [h1, h2, hne'], ?_⟩
    intro k
    simp only [Assoc.get_del, true_and]
    by_cases e1 : k = (u, v)
    · subst e1; simp
    · by_cases e2 : k = (v, u)
      · subst e2; simp
      · rw [if_neg (fun e => e2 e.symm), if_neg (fun e => e1 e.symm), if_neg (by simp [e1, e2])]

/-- Removing an edge from the graph and its keys, and possibly other nodes and list entries. -/
theorem NetOk.shrink (h : NetOk d Q r lr N) {N' : Net A} {u v : Obj}
    (inv : N'.g.Inv) (dir : N'.g.directed = N.g.directed) (sub : ∀ o ∈ N'.g.nodes, o ∈ N.g.nodes)
    (slot : ∀ x y, N'.g.slot x y = if Same d u v x y then none else N.g.slot x y)
    (keys : ∀ k, Assoc.get N'.keys k = if N.g.directed = false ∧ (k = (u, v) ∨ k = (v, u)) then none else Assoc.get N.keys k)
    (moved : N'.movedEdges = Q.moved) (noLonger : N'.noLonger = Q.noLonger) (toRef : N'.toRef = Q.toRef)
    (new : ∀ e ∈ N'.newEdges, e ∈ N.newEdges ∧ ¬ Same d u v e.1.1 e.1.2) (newOk : Assoc.Ok N'.newEdges)
    (syn : ∀ e ∈ N'.ghosted, e ∈ N.ghosted ∧ ¬ Same d u v e.1.1 e.1.2) (synOk : Assoc.Ok N'.ghosted)
    (back : ∀ k, k ∈ Assoc.keys N.newEdges ∨ k ∈ Assoc.keys N.ghosted → ¬ Same d u v k.1 k.2 → k ∈ Assoc.keys N'.newEdges ∨ k ∈ Assoc.keys N'.ghosted)
    (upd : ∀ k ∈ N'.toUpdate, k ∈ N.toUpdate ∧ ¬ Same d u v k.1 k.2)
    (rem : ∀ e ∈ N'.toRemove, e.1.1 ∈ N'.g.nodes ∧ e.1.2 ∈ N'.g.nodes ∧ Crosses r lr e.1 ∧ e.2 = decide (lr e.1.2 ≠ r) ∧ N'.g.slot e.1.1 e.1.2 = none) (remOk : Assoc.Ok N'.toRemove) :
    NetOk d Q r lr N' := by
  have hE : ∀ e, Entry r lr N e → ¬ Same d u v e.1.1 e.1.2 → Entry r lr N' e := fun e he hs => ⟨by rw [slot, if_neg hs]; exact he.1, he.2⟩
  have hin : ∀ k, k ∈ Assoc.keys N'.newEdges ∨ k ∈ Assoc.keys N'.ghosted → (k ∈ Assoc.keys N.newEdges ∨ k ∈ Assoc.keys N.ghosted) ∧ ¬ Same d u v k.1 k.2 := by
    rintro k (hk | hk)
    · obtain ⟨e, he, rfl⟩ := List.mem_map.1 hk
      exact ⟨.inl (List.mem_map_of_mem (new e he).1), (new e he).2⟩
    · obtain ⟨e, he, rfl⟩ := List.mem_map.1 hk
      exact ⟨.inr (List.mem_map_of_mem (syn e he).1), (syn e he).2⟩
  exact {
    inv := inv
    dir := dir.trans h.dir
    moved := moved
    noLonger := noLonger
    toRef := toRef
    uniq := fun a ha b hb => h.uniq a (sub a ha) b (sub b hb)
    keys := by
      intro k key hk
      rw [keys] at hk
      split at hk
      · cases hk
      · exact h.keys k key hk
    sym := by
      intro x y
      rw [keys, keys, h.sym x y]
      have : ((x, y) = (u, v) ∨ (x, y) = (v, u)) ↔ ((y, x) = (u, v) ∨ (y, x) = (v, u)) := by
        simp only [Prod.mk.injEq]; grind
      simp only [this]
    hasKey := by
      intro hd x y hh
      unfold Graph.hasEdge at hh
      rw [slot] at hh
      by_cases hs : Same d u v x y
      · rw [if_pos hs] at hh; cases hh
      · rw [if_neg hs] at hh
        rw [keys, if_neg]
        · exact h.hasKey hd x y hh
        · rintro ⟨-, e | e⟩
          · simp only [Prod.mk.injEq] at e; exact hs (.inl ⟨e.1.symm, e.2.symm⟩)
          · simp only [Prod.mk.injEq] at e; exact hs (.inr ⟨hd, e.2.symm, e.1.symm⟩)
    new := fun e he => hE e (h.new e (new e he).1) (new e he).2
    newOk := newOk
    syn := fun e he => hE e (h.syn e (syn e he).1) (syn e he).2
    synOk := synOk
    upd := fun k hk => back k (h.upd k (upd k hk).1) (upd k hk).2
    rem := rem
    remOk := remOk
    canon := by
      intro k hk key hkey
      obtain ⟨h1, h2⟩ := hin k hk
      have hkey' : N.edgeKey k = some key := by
        unfold Net.edgeKey at hkey ⊢
        rw [dir] at hkey
        cases hd : N.g.directed with
        | true => rw [hd] at hkey; exact hkey
        | false =>
          rw [hd] at hkey
          simp only [Bool.false_eq_true, if_false] at hkey ⊢
          rw [keys] at hkey
          split at hkey
          · cases hkey
          · exact hkey
      refine back key (h.canon k h1 key hkey') ?_
      intro hs
      have := key_same h.keys hkey'
      rw [h.dir] at this
      exact h2 ((same_trans hs.symm).1 this) }

theorem e_removed {N' : Net A} (h : NetOk d Q r lr N) (h' : NetOk d Q r lr N') {u v : Obj} (hu : u ∈ N.g.nodes) (hv : v ∈ N.g.nodes)
    (attr : ∀ x y, N'.g.attr x y = if Same d u v x y then none else N.g.attr x y) (x y : Nat) :
    N'.e x y = if SameN d u.uid v.uid x y then none else N.e x y := by
  apply option_ext'
  intro a
  rw [e_some h'.inv h'.uniq]
  constructor
  · rintro ⟨a', b', rfl, rfl, hab⟩
    rw [attr] at hab
    split at hab
    · cases hab
    · rename_i hs
      have hends := attr_ends h.inv hab
      rw [if_neg (fun c => hs ((sameN_uid h.uniq hu hv hends.1 hends.2).1 c)), e_nodes h.uniq hends.1 hends.2]
      exact hab
  · intro hab
    split at hab
    · cases hab
    · rename_i hs
      obtain ⟨a', b', rfl, rfl, hab'⟩ := (e_some h.inv h.uniq _ _ _).1 hab
      have hends := attr_ends h.inv hab'
      refine ⟨a', b', rfl, rfl, ?_⟩
      rw [attr, if_neg (fun c => hs ((sameN_uid h.uniq hu hv hends.1 hends.2).2 c))]
      exact hab'

theorem NetOk.removeEdge_plain (h : NetOk d Q r lr N) {u v : Obj} (he : N.g.hasEdge u v = true) (hne : d = true ∨ u ≠ v) (hc : ¬ Crosses r lr (u, v)) :
    ∃ N', N.removeEdge r lr u v = some N' ∧ NetOk d Q r lr N' ∧ (∀ o, o ∈ N'.g.nodes ↔ o ∈ N.g.nodes) ∧
      N'.v = { N.v with edge := fun x y => if SameN d u.uid v.uid x y then none else N.v.edge x y } := by
  obtain ⟨g, hg⟩ : ∃ g, N.g.removeEdge u v = some g := Option.isSome_iff_exists.1 (by rw [removeEdge_isSome, ← hasEdge_iff]; exact he)
  have hge := (removeEdge_some hg).2
  have hdg : g.directed = N.g.directed := by rw [hge]
  have hng : g.nodes = N.g.nodes := by rw [hge]
  obtain ⟨i, hi⟩ := Option.isSome_iff_exists.1 he
  have hn := slot_ends h.inv hi
  obtain ⟨ks, hk1, hk2⟩ := removeKey_ok (N := { N with g := g }) (fun _ => h.sym) (u := u) (v := v)
    (fun hd => h.hasKey (by rw [← h.dir, ← hdg]; exact hd) u v he) (hne.imp (fun x => by rw [← x, ← h.dir]; exact hdg) id)
  have hc' : crosses r lr u v = false := by
    rw [Bool.eq_false_iff]; exact fun hh => hc ((crosses_iff r lr u v).1 hh)
  have hok : NetOk d Q r lr { N with g := g, keys := ks } := by
    have hE : ∀ k, k ∈ Assoc.keys N.newEdges ∨ k ∈ Assoc.keys N.ghosted → ¬ Same d u v k.1 k.2 := fun k hk hs => hc ((h.keyCrosses hk).same hs.symm)
    have hsl : ∀ x y, g.slot x y = if Same d u v x y then none else N.g.slot x y := fun x y => by rw [slot_removeEdge h.inv hg, h.dir]
    refine h.shrink (u := u) (v := v) (h.inv.removeEdge hg) hdg (by intro o ho; rw [← hng]; exact ho) hsl (by intro k; rw [← hdg]; exact hk2 k) h.moved h.noLonger h.toRef
      (fun e he => ⟨he, hE _ (.inl (List.mem_map_of_mem he))⟩) h.newOk (fun e he => ⟨he, hE _ (.inr (List.mem_map_of_mem he))⟩) h.synOk (fun k hk _ => hk)
      (fun k hk => ⟨hk, hE k (h.upd k hk)⟩) ?_ h.remOk
    intro e he'
    obtain ⟨h1, h2, h3, h4, h5⟩ := h.rem e he'
    refine ⟨by show _ ∈ g.nodes; rw [hng]; exact h1, by show _ ∈ g.nodes; rw [hng]; exact h2, h3, h4, ?_⟩
    show g.slot _ _ = none
    rw [hsl, h5, ite_self]
  refine ⟨{ N with g := g, keys := ks }, ?_, hok, by intro o; show o ∈ g.nodes ↔ _; rw [hng], ?_⟩
  · unfold Net.removeEdge
    rw [hg, Option.bind_some]
    unfold Net.forget
    rw [hc']
    simpa using hk1
  · have hattr : ∀ x y, g.attr x y = if Same d u v x y then none else N.g.attr x y := fun x y => by rw [attr_removeEdge h.inv hg, h.dir]
    have := e_removed h hok hn.1 hn.2 hattr
    unfold Net.v
    congr 1
    · funext x
      rw [node_congr h.uniq (by intro o; show o ∈ g.nodes ↔ _; rw [hng])]
    · funext x y; exact this x y

theorem keys_del_mem {β : Type} {m : Assoc.Assoc EKey β} {K k : EKey} : k ∈ Assoc.keys (Assoc.del m K) ↔ k ∈ Assoc.keys m ∧ k ≠ K := by
  rw [Assoc.keys_del]; simp

theorem del_uu {β : Type} {g : Graph A} (hu : ∀ a ∈ g.nodes, ∀ b ∈ g.nodes, a.uid = b.uid → a = b) {m : Assoc.Assoc EKey β} (hl : ∀ k ∈ Assoc.keys m, k.1 ∈ g.nodes ∧ k.2 ∈ g.nodes)
    {K : EKey} (hK : K.1 ∈ g.nodes ∧ K.2 ∈ g.nodes) : (Assoc.keys (Assoc.del m K)).map uu = ((Assoc.keys m).map uu).filter (fun p => decide (p ≠ uu K)) := by
  rw [← filter_uu hu hl hK, Assoc.keys_del]

/-- The removal of an edge to a ghost that this rank has sent to the other rank, always with the same orientation `K`. -/
theorem NetOk.removeEdge_cross (h : NetOk d Q r lr N) {u v : Obj} (he : N.g.hasEdge u v = true) (hc : Crosses r lr (u, v)) {K : EKey} (hK : K ∈ Assoc.keys N.ghosted)
    (hs : Same d u v K.1 K.2) (hrev : d = false → (K.2, K.1) ∉ Assoc.keys N.newEdges ∧ (K.2, K.1) ∉ Assoc.keys N.ghosted) :
    ∃ N', N.removeEdge r lr u v = some N' ∧ NetOk d Q r lr N' ∧ (∀ o, o ∈ N'.g.nodes ↔ o ∈ N.g.nodes) ∧
      N'.v = { N.v with
        edge := fun x y => if SameN d u.uid v.uid x y then none else N.v.edge x y
        new := N.v.new.filter (fun p => decide (p ≠ uu K))
        upd := N.v.upd.filter (fun p => decide (p ≠ uu K))
        syn := N.v.syn.filter (fun p => decide (p ≠ uu K))
        rem := N.v.rem ++ [uu K] } := by
  obtain ⟨g, hg⟩ : ∃ g, N.g.removeEdge u v = some g := Option.isSome_iff_exists.1 (by rw [removeEdge_isSome, ← hasEdge_iff]; exact he)
  have hge := (removeEdge_some hg).2
  have hdg : g.directed = N.g.directed := by rw [hge]
  have hng : g.nodes = N.g.nodes := by rw [hge]
  obtain ⟨i, hi⟩ := Option.isSome_iff_exists.1 he
  have hn := slot_ends h.inv hi
  have hne : u ≠ v := hc.ne
  have hKn := h.keyEnds (.inr hK)
  have hKc := h.keyCrosses (.inr hK)
  -- the canonical key
  have hkey : N.edgeKey (u, v) = some K := by
    obtain ⟨key, hkey⟩ := edgeKey_some h he
    have h1 := canon_mem h hkey ⟨K, .inr hK, hs⟩
    have h2 := key_same h.keys hkey
    rw [h.dir] at h2
    have h3 : Same d key.1 key.2 K.1 K.2 := (same_trans h2).2 hs
    rcases h3 with ⟨e1, e2⟩ | ⟨hd, e1, e2⟩
    · rw [hkey, show key = K from Prod.ext e1 e2]
    · have : key = (K.2, K.1) := Prod.ext e1 e2
      rw [this] at h1
      rcases h1 with h1 | h1
      · exact absurd h1 (hrev hd).1
      · exact absurd h1 (hrev hd).2
  have honly : ∀ k, k ∈ Assoc.keys N.newEdges ∨ k ∈ Assoc.keys N.ghosted → Same d u v k.1 k.2 → k = K := by
    intro k hk hsk
    rcases (same_trans hs).1 hsk with ⟨e1, e2⟩ | ⟨hd, e1, e2⟩
    · exact Prod.ext e1.symm e2.symm
    · have : k = (K.2, K.1) := Prod.ext e2.symm e1.symm
      rw [this] at hk
      rcases hk with h1 | h1
      · exact absurd h1 (hrev hd).1
      · exact absurd h1 (hrev hd).2
  have hKr : K ∉ Assoc.keys N.toRemove := by
    intro hk
    obtain ⟨e, he', rfl⟩ := List.mem_map.1 hk
    have := (h.rem e he').2.2.2.2
    obtain ⟨j, hj⟩ := h.keySlot (.inr hK)
    rw [hj] at this; cases this
  obtain ⟨ks, hk1, hk2⟩ := removeKey_ok (N := { N with g := g, toRemove := Assoc.set N.toRemove K (decide (lr K.2 ≠ r)), ghosted := Assoc.del N.ghosted K, toUpdate := N.toUpdate.filter (fun k => decide (k ≠ K)), newEdges := Assoc.del N.newEdges K }) (fun _ => h.sym) (u := u) (v := v)
    (fun hd => h.hasKey (by rw [← h.dir, ← hdg]; exact hd) u v he) (.inr hne)
  have hsl : ∀ x y, g.slot x y = if Same d u v x y then none else N.g.slot x y := fun x y => by rw [slot_removeEdge h.inv hg, h.dir]
  have hok : NetOk d Q r lr { N with g := g, keys := ks, toRemove := Assoc.set N.toRemove K (decide (lr K.2 ≠ r)), ghosted := Assoc.del N.ghosted K, toUpdate := N.toUpdate.filter (fun k => decide (k ≠ K)), newEdges := Assoc.del N.newEdges K } := by
    refine h.shrink (u := u) (v := v) (h.inv.removeEdge hg) hdg (by intro o ho; rw [← hng]; exact ho) hsl (by intro k; rw [← hdg]; exact hk2 k) h.moved h.noLonger h.toRef
      ?_ (h.newOk.del K) ?_ (h.synOk.del K) ?_ ?_ ?_ (h.remOk.set _ _)
    · intro e he'
      have he' : e ∈ N.newEdges ∧ e.1 ≠ K := by simpa [Assoc.del] using he'
      exact ⟨he'.1, fun hs' => he'.2 (honly e.1 (.inl (List.mem_map_of_mem he'.1)) hs')⟩
    · intro e he'
      have he' : e ∈ N.ghosted ∧ e.1 ≠ K := by simpa [Assoc.del] using he'
      exact ⟨he'.1, fun hs' => he'.2 (honly e.1 (.inr (List.mem_map_of_mem he'.1)) hs')⟩
    · intro k hk hns
      have hkK : k ≠ K := by rintro rfl; exact hns hs
      exact hk.imp (fun hk => keys_del_mem.2 ⟨hk, hkK⟩) (fun hk => keys_del_mem.2 ⟨hk, hkK⟩)
    · intro k hk
      have hk : k ∈ N.toUpdate ∧ k ≠ K := by simpa using hk
      exact ⟨hk.1, fun hs' => hk.2 (honly k (h.upd k hk.1) hs')⟩
    · intro e he'
      show e.1.1 ∈ g.nodes ∧ e.1.2 ∈ g.nodes ∧ Crosses r lr e.1 ∧ e.2 = decide (lr e.1.2 ≠ r) ∧ g.slot e.1.1 e.1.2 = none
      rw [hng]
      have hold : e ∈ N.toRemove → e.1.1 ∈ N.g.nodes ∧ e.1.2 ∈ N.g.nodes ∧ Crosses r lr e.1 ∧ e.2 = decide (lr e.1.2 ≠ r) ∧ g.slot e.1.1 e.1.2 = none := by
        intro hm
        obtain ⟨h1, h2, h3, h4, h5⟩ := h.rem e hm
        exact ⟨h1, h2, h3, h4, by rw [hsl, h5, ite_self]⟩
      rcases Assoc.mem_set he' with rfl | h' | h'
      · exact ⟨hKn.1, hKn.2, hKc, rfl, by rw [hsl, if_pos hs]⟩
      · exact hold h'.1
      · exact hold h'
  refine ⟨_, ?_, hok, by intro o; show o ∈ g.nodes ↔ _; rw [hng], ?_⟩
  · have hkey' : ({ N with g := g } : Net A).edgeKey (u, v) = some K := by
      rw [← hkey]; unfold Net.edgeKey; simp only [hdg]
    have hgs : (Assoc.get N.ghosted K).isSome = true := (Assoc.get_isSome _ _).2 hK
    unfold Net.removeEdge
    rw [hg, Option.bind_some]
    unfold Net.forget
    rw [if_pos ((crosses_iff r lr u v).2 hc), hkey', Option.bind_some, if_pos hgs, Option.bind_some]
    exact hk1
  · have hattr : ∀ x y, g.attr x y = if Same d u v x y then none else N.g.attr x y := fun x y => by rw [attr_removeEdge h.inv hg, h.dir]
    have he2 := e_removed h hok hn.1 hn.2 hattr
    have e1 := del_uu (m := N.newEdges) h.uniq (fun k hk => h.keyEnds (.inl hk)) hKn
    have e2 := del_uu (m := N.ghosted) h.uniq (fun k hk => h.keyEnds (.inr hk)) hKn
    have e3 := filter_uu (l := N.toUpdate) h.uniq (fun k hk => h.keyEnds (h.upd k hk)) hKn
    have e4 : (Assoc.keys (Assoc.set N.toRemove K (decide (lr K.2 ≠ r)))).map uu = (Assoc.keys N.toRemove).map uu ++ [uu K] := by
      rw [Assoc.keys_set, if_neg hKr, List.map_append]; rfl
    unfold Net.v
    rw [e1, e2, e3, e4]
    congr 1
    · funext x
      rw [node_congr h.uniq (by intro o; show o ∈ g.nodes ↔ _; rw [hng])]
    · funext x y; exact he2 x y

/-! ### `clear_edges` -/

/-- The entries of `edges_to_remove` that `clear_edges` makes. -/
def clearedRem (r : Nat) (lr : Obj → Nat) (ks : List EKey) (m : Assoc.Assoc EKey Bool) : Assoc.Assoc EKey Bool :=
  ks.foldl (fun m k => Assoc.set m k (decide (lr k.1 = r))) m

theorem clearOne_fold {g : Graph A} {keys : Assoc.Assoc EKey EKey} (ks : List EKey) : ∀ (N : Net A), N.g = g → N.keys = keys →
    (∀ k ∈ ks, ∀ N : Net A, N.g = g → N.keys = keys → N.edgeKey k = some k) →
    ∃ up, ks.foldlM (Net.clearOne r lr) N = some { N with toRemove := clearedRem r lr ks N.toRemove, toUpdate := up } ∧ ∀ k, k ∈ up ↔ k ∈ N.toUpdate ∧ k ∉ ks := by
  induction ks with
  | nil => intro N _ _ _; exact ⟨N.toUpdate, rfl, by simp⟩
  | cons k ks ih =>
    intro N hg hk he
    obtain ⟨up, h1, h2⟩ := ih { N with toRemove := Assoc.set N.toRemove k (decide (lr k.1 = r)), toUpdate := N.toUpdate.filter (fun j => decide (j ≠ k)) } hg hk
      (fun j hj => he j (List.mem_cons_of_mem _ hj))
    refine ⟨up, ?_, ?_⟩
    · rw [List.foldlM_cons]
      have : Net.clearOne r lr N k = some { N with toRemove := Assoc.set N.toRemove k (decide (lr k.1 = r)), toUpdate := N.toUpdate.filter (fun j => decide (j ≠ k)) } := by
        unfold Net.clearOne
        rw [he k (List.mem_cons_self ..) N hg hk]; rfl
      rw [this]
      exact h1
    · intro j
      rw [h2]
      simp only [List.mem_filter, decide_eq_true_eq, List.mem_cons, not_or]
      exact ⟨fun h => ⟨h.1.1, h.1.2, h.2⟩, fun h => ⟨⟨h.1, h.2.1⟩, h.2.2⟩⟩

theorem mem_clearedRem {ks : List EKey} : ∀ {m : Assoc.Assoc EKey Bool} {e : EKey × Bool}, e ∈ clearedRem r lr ks m → e ∈ m ∨ e.1 ∈ ks ∧ e.2 = decide (lr e.1.1 = r) := by
  induction ks with
  | nil => intro m e h; exact .inl h
  | cons k ks ih =>
    intro m e h
    rcases ih (m := Assoc.set m k (decide (lr k.1 = r))) h with h | h
    · rcases Assoc.mem_set h with rfl | h' | h'
      · exact .inr ⟨List.mem_cons_self .., rfl⟩
      · exact .inl h'.1
      · exact .inl h'
    · exact .inr ⟨List.mem_cons_of_mem _ h.1, h.2⟩

theorem clearedRem_ok {ks : List EKey} : ∀ {m : Assoc.Assoc EKey Bool}, Assoc.Ok m → Assoc.Ok (clearedRem r lr ks m) := by
  induction ks with
  | nil => intro m h; exact h
  | cons k ks ih => intro m h; exact ih (h.set _ _)

theorem keys_clearedRem {g : Graph A} (hu : ∀ a ∈ g.nodes, ∀ b ∈ g.nodes, a.uid = b.uid → a = b) {ks : List EKey} (hks : ∀ k ∈ ks, k.1 ∈ g.nodes ∧ k.2 ∈ g.nodes) :
    ∀ {m : Assoc.Assoc EKey Bool}, (∀ k ∈ Assoc.keys m, k.1 ∈ g.nodes ∧ k.2 ∈ g.nodes) →
      (Assoc.keys (clearedRem r lr ks m)).map uu = (ks.map uu).foldl ins ((Assoc.keys m).map uu) := by
  induction ks with
  | nil => intro m _; rfl
  | cons k ks ih =>
    intro m hm
    have hk := hks k (List.mem_cons_self ..)
    have := ih (fun j hj => hks j (List.mem_cons_of_mem _ hj)) (m := Assoc.set m k (decide (lr k.1 = r))) (by
      intro j hj
      rw [Assoc.keys_set] at hj
      split at hj
      · exact hm j hj
      · rcases List.mem_append.1 hj with hj | hj
        · exact hm j hj
        · rw [List.mem_singleton] at hj; rw [hj]; exact hk)
    show (Assoc.keys (clearedRem r lr ks (Assoc.set m k (decide (lr k.1 = r))))).map uu = _
    rw [this, Assoc.keys_set]
    show _ = (ks.map uu).foldl ins (ins ((Assoc.keys m).map uu) (uu k))
    rw [← ins_uu hu hm hk]
    congr

/-- `clear_edges`, if all of the edges to ghosts that were changed have been sent to the other ranks, each always with the same orientation. -/
theorem NetOk.clearEdges (h : NetOk d Q r lr N) (hrev : d = false → ∀ k ∈ Assoc.keys N.ghosted, (k.2, k.1) ∉ Assoc.keys N.newEdges ∧ (k.2, k.1) ∉ Assoc.keys N.ghosted)
    (hupd : ∀ k ∈ N.toUpdate, k ∈ Assoc.keys N.ghosted) :
    ∃ N', N.clearEdges r lr = some N' ∧ NetOk d Q r lr N' ∧ (∀ o, o ∈ N'.g.nodes ↔ o ∈ N.g.nodes) ∧
      N'.v = { N.v with edge := fun _ _ => none, new := [], upd := [], syn := [], rem := N.v.syn.foldl ins N.v.rem } := by
  have hcan : ∀ k ∈ Assoc.keys N.ghosted, N.edgeKey k = some k := by
    intro k hk
    obtain ⟨i, hi⟩ := h.keySlot (.inr hk)
    obtain ⟨key, hkey⟩ := edgeKey_some h (u := k.1) (v := k.2) (by unfold Graph.hasEdge; rw [hi]; rfl)
    have h1 := canon_mem h hkey ⟨k, .inr hk, .inl ⟨rfl, rfl⟩⟩
    have h2 := key_same h.keys hkey
    rw [h.dir] at h2
    rcases h2 with ⟨e1, e2⟩ | ⟨hd, e1, e2⟩
    · rw [hkey, show key = k from (Prod.ext (by simpa using e1) (by simpa using e2))]
    · have hr := hrev hd k hk
      have : key = (k.2, k.1) := Prod.ext (by simpa using e1) (by simpa using e2)
      rw [this] at h1
      exact (h1.elim hr.1 hr.2).elim
  obtain ⟨up, h1, h2⟩ := clearOne_fold (r := r) (lr := lr) (Assoc.keys N.ghosted) { N with g := N.g.clearEdges } rfl rfl (by
    intro k hk N' hg hks
    rw [← hcan k hk]
    unfold Net.edgeKey
    rw [hg, hks]; rfl)
  have hup : up = [] := by
    rw [List.eq_nil_iff_forall_not_mem]
    intro k hk
    obtain ⟨a, b⟩ := (h2 k).1 hk
    exact b (hupd k a)
  subst hup
  have hok : NetOk d Q r lr { N with g := N.g.clearEdges, toRemove := clearedRem r lr (Assoc.keys N.ghosted) N.toRemove, toUpdate := [], newEdges := [], ghosted := [] } := {
    inv := h.inv.clearEdges
    dir := h.dir
    moved := h.moved
    noLonger := h.noLonger
    toRef := h.toRef
    uniq := h.uniq
    keys := h.keys
    sym := h.sym
    hasKey := by intro _ u v hh; rw [hasEdge_iff, attr_clearEdges] at hh; cases hh
    new := by intro e he; cases he
    newOk := List.nodup_nil
    syn := by intro e he; cases he
    synOk := List.nodup_nil
    upd := by intro k hk; cases hk
    rem := by
      intro e he
      have hns : ∀ x y, N.g.clearEdges.slot x y = none := by
        intro x y
        cases hh : N.g.clearEdges.slot x y with
        | none => rfl
        | some i =>
          have : N.g.clearEdges.hasEdge x y = true := by unfold Graph.hasEdge; rw [hh]; rfl
          rw [hasEdge_iff, attr_clearEdges] at this; cases this
      rcases mem_clearedRem he with he | ⟨he, h3⟩
      · obtain ⟨a1, a2, a3, a4, -⟩ := h.rem e he
        exact ⟨a1, a2, a3, a4, hns _ _⟩
      · have hc := h.keyCrosses (.inr he)
        have hn := h.keyEnds (.inr he)
        refine ⟨hn.1, hn.2, hc, ?_, hns _ _⟩
        rw [h3]
        rcases hc with ⟨c1, c2⟩ | ⟨c1, c2⟩ <;> simp [c1, c2]
    remOk := clearedRem_ok h.remOk
    canon := by rintro k (hk | hk) <;> cases hk }
  refine ⟨_, ?_, hok, fun o => Iff.rfl, ?_⟩
  · unfold Net.clearEdges
    rw [h1]; rfl
  · have e1 := keys_clearedRem (r := r) (lr := lr) h.uniq (ks := Assoc.keys N.ghosted) (fun k hk => h.keyEnds (.inr hk)) (m := N.toRemove) (by
      intro k hk
      obtain ⟨e, he, rfl⟩ := List.mem_map.1 hk
      have := h.rem e he
      exact ⟨this.1, this.2.1⟩)
    unfold Net.v
    rw [e1]
    congr 1
    funext x y
    unfold Net.e
    cases Net.node { N with g := N.g.clearEdges, toRemove := clearedRem r lr (Assoc.keys N.ghosted) N.toRemove, toUpdate := [], newEdges := [], ghosted := [] } x with
    | none => rfl
    | some a =>
      rw [Option.bind_some]
      cases Net.node { N with g := N.g.clearEdges, toRemove := clearedRem r lr (Assoc.keys N.ghosted) N.toRemove, toUpdate := [], newEdges := [], ghosted := [] } y with
      | none => rfl
      | some b => exact attr_clearEdges N.g a b

end Repast.Network
