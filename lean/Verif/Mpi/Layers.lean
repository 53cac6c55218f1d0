import Verif.Mpi.Lib
import Verif.ValueLayer.Shared

/-!
Shared value layers of ranks that run at their own speed: `SharedValueLayer.__init__` and `_synch_ghosts` (value_layer.py:489-534, 957-989) as programs of the single ranks.

Simplification: the shapes and bounds of the buffers, which the ranks exchange at construction (value_layer.py:702, 794), are sent together with the values at each synchronization, as in `ValueLayer/Shared`; so what
raises an exception when a layer is constructed (too many buffers for one rank, or none) raises it in the synchronization that ends the construction.
-/
namespace Repast.Mpi.Layers
open Repast.ValueLayer Repast.Topology Repast.Space

variable {V : Type}

/-- value_layer.py:966-971: what a rank sends in a synchronization, for each rank. -/
def sendOut (t : Topo) (buf : Nat) (junk : Nat → Nat → V) (s : Nat) (l : Layer V) : Option (List (List Meta × List V)) :=
  if t.size ≤ 1 then none
  else (t.buffers s buf).bind fun bs => if bs = [] then none else allSome ((List.range t.size).map fun k => sent t buf l (junk k) s k)

/-- value_layer.py:975-987: what has been received is stored, in the order of the ranks. -/
def recvAll (t : Topo) (buf k : Nat) (l : Layer V) (msgs : List (List Meta × List V)) (m : Ten V) : Option (Ten V) :=
  msgs.foldlM (fun m msg => store t buf k l msg.2 0 (msg.1.takeWhile fun e => e.first t.nd ≠ 0) m) m

/-- value_layer.py:957-989 `_synch_ghosts`, on rank `r`. -/
def layerSynch (t : Topo) (buf : Nat) (junk : Nat → Nat → V) (r : Nat) (l : Layer V) : Prog (Layer V) :=
  (Prog.lift (sendOut t buf junk r l)).bind fun out => (Prog.call "value_layer.py:973" out).bind fun all =>
    (Prog.lift ((recvAll t buf r l (all.map fun o => o[r]?.getD ([], [])) l.ten).bind (bufferSelf t buf r))).bind fun m => .ret { l with ten := m }

/-- value_layer.py:489-534 `__init__`, on rank `r`. -/
def layerNew (t : Topo) (buf : Nat) (junk : Nat → Nat → V) (rand : Nat → Nat → Nat → V) (v : Option V) (r : Nat) : Prog (Layer V) :=
  (Prog.lift (construct t buf rand v r)).bind fun l =>
    if 1 < t.size then
      (Prog.call (if t.nd = 1 then "value_layer.py:702" else "value_layer.py:794") ()).bind fun _ => (Prog.call "value_layer.py:533" ()).bind fun _ => layerSynch t buf junk r l
    else .ret l

theorem allSome_some {α β : Type} {g : α → Option β} : ∀ {l : List α} {out : List β}, allSome (l.map g) = some out → ∀ (i : Nat) a, l[i]? = some a → ∃ b, g a = some b ∧ out[i]? = some b := by
  intro l
  induction l with
  | nil => intro out _ i a h; simp at h
  | cons x l ih =>
    intro out h i a hi
    obtain ⟨y, hy, h⟩ := Option.bind_eq_some_iff.1 (show (g x).bind (fun y => (allSome (l.map g)).bind fun ys => some (y :: ys)) = some out from h)
    obtain ⟨ys, hys, h⟩ := Option.bind_eq_some_iff.1 h
    cases h
    cases i with
    | zero => simp at hi; subst hi; exact ⟨y, hy, rfl⟩
    | succ i => rw [List.getElem?_cons_succ] at hi ⊢; exact ih hys i a hi

theorem allSome_none {α β : Type} {g : α → Option β} : ∀ {l : List α}, allSome (l.map g) = none → ∃ a ∈ l, g a = none := by
  intro l
  induction l with
  | nil => intro h; cases h
  | cons x l ih =>
    intro h
    have h : (g x).bind (fun y => (allSome (l.map g)).bind fun ys => some (y :: ys)) = none := h
    cases hx : g x with
    | none => exact ⟨x, List.mem_cons_self, hx⟩
    | some y =>
      rw [hx, Option.bind_some] at h
      cases hl : allSome (l.map g) with
      | none => obtain ⟨a, h1, h2⟩ := ih hl; exact ⟨a, List.mem_cons_of_mem _ h1, h2⟩
      | some ys => rw [hl] at h; cases h

variable {t : Topo} {buf : Nat} {junk : Nat → Nat → Nat → V} {w : Nat → Layer V}

theorem receive_none {s : Nat} {ss : List Nat} (hs : s ∈ ss) {k : Nat} (h : sent t buf (w s) (junk s k) s k = none) : ∀ m, receive t buf w junk k ss m = none := by
  induction ss with
  | nil => cases hs
  | cons a ss ih =>
    intro m
    show (sent t buf (w a) (junk a k) a k).bind _ = none
    rcases List.mem_cons.1 hs with rfl | hs
    · rw [h]; rfl
    · cases sent t buf (w a) (junk a k) a k with
      | none => rfl
      | some msg =>
        rw [Option.bind_some]
        show (store _ _ _ _ _ _ _ _).bind _ = none
        cases store t buf k (w k) msg.2 0 (msg.1.takeWhile fun e => e.first t.nd ≠ 0) m with
        | none => rfl
        | some m => exact ih hs m

theorem receive_eq {k : Nat} {msg : Nat → List Meta × List V} {ss : List Nat} (h : ∀ s ∈ ss, sent t buf (w s) (junk s k) s k = some (msg s)) :
    ∀ m, receive t buf w junk k ss m = recvAll t buf k (w k) (ss.map msg) m := by
  induction ss with
  | nil => intro m; rfl
  | cons a ss ih =>
    intro m
    show (sent t buf (w a) (junk a k) a k).bind _ = _
    rw [h a List.mem_cons_self, Option.bind_some]
    unfold recvAll
    rw [List.map_cons, List.foldlM_cons]
    show (store _ _ _ _ _ _ _ _).bind _ = (store _ _ _ _ _ _ _ _).bind _
    congr 1
    funext m
    exact ih (fun s hs => h s (List.mem_cons_of_mem _ hs)) m

theorem lock_layerSynch (h1 : 0 < t.size) : Lock t.size (fun r => layerSynch t buf (junk r) r (w r)) (synch t buf junk w) := by
  by_cases hs : ∃ r < t.size, sendOut t buf (junk r) r (w r) = none
  · have e : synch t buf junk w = none := by
      obtain ⟨r, hr, hs⟩ := hs
      unfold synch
      unfold sendOut at hs
      split at hs
      · next c => rw [if_pos c]
      · next c =>
        rw [if_neg c, if_neg]
        intro hall
        rw [List.all_eq_true] at hall
        cases hb : t.buffers r buf with
        | none =>
          have := hall r (List.mem_range.2 hr)
          unfold synchRank at this
          rw [hb] at this
          cases this
        | some bs =>
          rw [hb, Option.bind_some] at hs
          split at hs
          · next c =>
            have := hall r (List.mem_range.2 hr)
            unfold synchRank at this
            rw [hb] at this
            simp [c] at this
          · obtain ⟨k, hk, hs⟩ := allSome_none hs
            have := hall k hk
            unfold synchRank at this
            cases hb : t.buffers k buf with
            | none => rw [hb] at this; cases this
            | some bs =>
              rw [hb] at this
              simp only [Option.bind_eq_bind, Option.bind_some, receive_none (List.mem_range.2 hr) hs, Option.bind_none] at this
              split at this <;> cases this
    rw [e]
    obtain ⟨r, hr, hs⟩ := hs
    exact .raised ⟨r, hr, by unfold layerSynch; rw [hs]; rfl⟩
  · have hs : ∀ r < t.size, ∃ out, sendOut t buf (junk r) r (w r) = some out := fun r hr => by
      cases e : sendOut t buf (junk r) r (w r) with
      | none => exact absurd ⟨r, hr, e⟩ hs
      | some out => exact ⟨out, rfl⟩
    have hout := fun r hr => (Classical.choose_spec (hs r hr))
    let out : Nat → List (List Meta × List V) := fun r => (sendOut t buf (junk r) r (w r)).getD []
    have ho : ∀ r < t.size, sendOut t buf (junk r) r (w r) = some (out r) := fun r hr => by
      obtain ⟨x, hx⟩ := hs r hr
      show _ = some (Option.getD _ _)
      rw [hx]; rfl
    have hsize : ¬ t.size ≤ 1 := fun c => by
      obtain ⟨x, hx⟩ := hs 0 h1
      unfold sendOut at hx
      rw [if_pos c] at hx
      cases hx
    have hsent : ∀ s < t.size, ∀ k < t.size, sent t buf (w s) (junk s k) s k = some (((out s)[k]?).getD ([], [])) := by
      intro s hs k hk
      have := ho s hs
      unfold sendOut at this
      rw [if_neg hsize] at this
      obtain ⟨bs, hb, this⟩ := Option.bind_eq_some_iff.1 this
      split at this
      · cases this
      · obtain ⟨b, h1, h2⟩ := allSome_some this k k (List.getElem?_range hk)
        rw [h2, h1]; rfl
    have hbuf : ∀ r < t.size, ∃ bs, t.buffers r buf = some bs ∧ bs ≠ [] := by
      intro r hr
      have := ho r hr
      unfold sendOut at this
      rw [if_neg hsize] at this
      obtain ⟨bs, hb, this⟩ := Option.bind_eq_some_iff.1 this
      split at this
      · cases this
      · next c => exact ⟨bs, hb, c⟩
    have hrank : ∀ r < t.size, synchRank t buf w junk r = (recvAll t buf r (w r) ((List.range t.size).map fun s => ((out s)[r]?).getD ([], [])) (w r).ten).bind (bufferSelf t buf r) := by
      intro r hr
      obtain ⟨bs, hb, hne⟩ := hbuf r hr
      unfold synchRank
      rw [hb]
      simp only [Option.bind_eq_bind, Option.bind_some, if_neg hne]
      rw [receive_eq fun s hs => hsent s (List.mem_range.1 hs) r hr]
    refine Lock.congr (Lock.called (site := "value_layer.py:973") (m := out) (k := fun r all => (Prog.lift ((recvAll t buf r (w r) (all.map fun o => o[r]?.getD ([], [])) (w r).ten).bind (bufferSelf t buf r))).bind fun m => .ret { w r with ten := m })
      (o := synch t buf junk w) ?_) fun r hr => by unfold layerSynch; rw [ho r hr]; rfl
    simp only [List.map_map, Function.comp_def]
    unfold synch
    rw [if_neg hsize]
    by_cases hall : ∀ k < t.size, (synchRank t buf w junk k).isSome
    · rw [if_pos (List.all_eq_true.2 fun k hk => hall k (List.mem_range.1 hk))]
      refine .done fun r hr => ?_
      obtain ⟨m, hm⟩ := Option.isSome_iff_exists.1 (hall r hr)
      rw [← hrank r hr, hm]
      rfl
    · rw [if_neg fun h => hall fun k hk => List.all_eq_true.1 h k (List.mem_range.2 hk)]
      have : ∃ k < t.size, synchRank t buf w junk k = none := Classical.byContradiction fun hc => hall fun k hk => by
        cases e : synchRank t buf w junk k with
        | none => exact absurd ⟨k, hk, e⟩ hc
        | some _ => rfl
      obtain ⟨k, hk, e⟩ := this
      exact .raised ⟨k, hk, by rw [← hrank k hk, e]; rfl⟩

theorem lock_layerNew (h1 : 0 < t.size) (rand : Nat → Nat → Nat → Nat → V) (v : Option V) : Lock t.size (fun r => layerNew t buf (junk r) (rand r) v r) (create t buf junk rand v) := by
  unfold create
  by_cases hall : ∀ k < t.size, (construct t buf (rand k) v k).isSome
  · rw [if_pos (List.all_eq_true.2 fun k hk => hall k (List.mem_range.1 hk))]
    have hc : ∀ r < t.size, construct t buf (rand r) v r = some ((construct t buf (rand r) v r).getD (Layer.new (bufBox t buf r) t.periodic (rand r))) := fun r hr => by
      obtain ⟨l, hl⟩ := Option.isSome_iff_exists.1 (hall r hr)
      rw [hl]; rfl
    by_cases c : 1 < t.size
    · simp only [if_pos c]
      refine Lock.congr (Lock.called (site := if t.nd = 1 then "value_layer.py:702" else "value_layer.py:794") (m := fun _ => ()) (k := fun r _ => (Prog.call "value_layer.py:533" ()).bind fun _ =>
        layerSynch t buf (junk r) r ((construct t buf (rand r) v r).getD (Layer.new (bufBox t buf r) t.periodic (rand r)))) (Lock.called (m := fun _ => ()) (lock_layerSynch h1))) fun r hr => ?_
      unfold layerNew
      rw [hc r hr]
      simp only [if_pos c]
      rfl
    · simp only [if_neg c]
      refine .done fun r hr => ?_
      unfold layerNew
      rw [hc r hr]
      simp only [if_neg c]
      rfl
  · rw [if_neg fun h => hall fun k hk => List.all_eq_true.1 h k (List.mem_range.2 hk)]
    have : ∃ k < t.size, construct t buf (rand k) v k = none := Classical.byContradiction fun hc => hall fun k hk => by
      cases e : construct t buf (rand k) v k with
      | none => exact absurd ⟨k, hk, e⟩ hc
      | some _ => rfl
    obtain ⟨k, hk, e⟩ := this
    exact .raised ⟨k, hk, by unfold layerNew; rw [e]; rfl⟩

/-! ### The value layers of a context -/

/-- A value layer on all ranks. -/
structure Lay (V : Type) where
  t : Topo
  buf : Nat
  w : Nat → Layer V

/-- A value layer on one rank. -/
structure RLay (V : Type) where
  t : Topo
  buf : Nat
  l : Layer V

def Lay.view (r : Nat) (x : Lay V) : RLay V := { t := x.t, buf := x.buf, l := x.w r }

/-- context.py:260-261, on all ranks. `junk j` is the previous content of the send buffers of layer `j`. -/
def synchAll (junk : Nat → Nat → Nat → Nat → V) : Nat → List (Lay V) → Option (List (Lay V))
  | _, [] => some []
  | j, x :: xs => (synch x.t x.buf (junk j) x.w).bind fun w => (synchAll junk (j + 1) xs).map fun ys => { x with w := w } :: ys

/-- context.py:260-261 `for vl in self.value_layers: vl._synch_ghosts()`, on rank `r`. -/
def synchOwn (junk : Nat → Nat → Nat → V) (r : Nat) : Nat → List (RLay V) → Prog (List (RLay V))
  | _, [] => .ret []
  | j, x :: xs => (layerSynch x.t x.buf (junk j) r x.l).bind fun l => (synchOwn junk r (j + 1) xs).bind fun ys => .ret ({ x with l := l } :: ys)

variable {n : Nat}

theorem lock_synchAll (hn : 0 < n) (junk : Nat → Nat → Nat → Nat → V) : ∀ (xs : List (Lay V)) (j : Nat), (∀ x ∈ xs, x.t.size = n) →
    Lock n (fun r => synchOwn (fun j => junk j r) r j (xs.map (Lay.view r))) ((synchAll junk j xs).map fun ys r => ys.map (Lay.view r)) := by
  intro xs
  induction xs with
  | nil => intro j _; exact .done fun _ _ => rfl
  | cons x xs ih =>
    intro j h
    have hx : x.t.size = n := h x List.mem_cons_self
    have h1 : Lock n (fun r => layerSynch x.t x.buf (junk j r) r (x.w r)) (synch x.t x.buf (junk j) x.w) := by subst hx; exact lock_layerSynch hn
    have h2 := ih (j + 1) fun y hy => h y (List.mem_cons_of_mem _ hy)
    have hb := Lock.bind (q := fun r l => (synchOwn (fun j => junk j r) r (j + 1) (xs.map (Lay.view r))).bind fun ys => .ret ({ Lay.view r x with l := l } :: ys))
      (o' := fun w => ((synchAll junk (j + 1) xs).map fun ys r => ys.map (Lay.view r)).map fun g r => ({ Lay.view r x with l := w r } : RLay V) :: g r) h1 fun w _ =>
        Lock.bind_ret (g := fun r ys => ({ Lay.view r x with l := w r } : RLay V) :: ys) h2 fun _ _ _ _ => rfl
    refine Eq.mp (congrArg (Lock n _) ?_) hb
    show _ = ((synch x.t x.buf (junk j) x.w).bind _).map _
    cases synch x.t x.buf (junk j) x.w with
    | none => rfl
    | some w =>
      rw [Option.bind_some, Option.bind_some, Option.map_map, Option.map_map]
      rfl

theorem synchAll_fit {junk : Nat → Nat → Nat → Nat → V} : ∀ {xs ys : List (Lay V)} {j : Nat}, synchAll junk j xs = some ys → ys.map (fun x => (x.t, x.buf)) = xs.map fun x => (x.t, x.buf) := by
  intro xs
  induction xs with
  | nil => intro ys j e; cases e; rfl
  | cons x xs ih =>
    intro ys j e
    obtain ⟨w, -, e⟩ := Option.bind_eq_some_iff.1 e
    obtain ⟨zs, h, rfl⟩ := Option.map_eq_some_iff.1 e
    rw [List.map_cons, List.map_cons, ih h]

theorem synchAll_at {junk : Nat → Nat → Nat → Nat → V} : ∀ {xs ys : List (Lay V)} {j : Nat}, synchAll junk j xs = some ys → ∀ {i : Nat} {x : Lay V}, xs[i]? = some x →
    ∃ w, synch x.t x.buf (junk (j + i)) x.w = some w ∧ ys[i]? = some { x with w := w } := by
  intro xs
  induction xs with
  | nil => intro ys j _ i x h; simp at h
  | cons a xs ih =>
    intro ys j e i x hi
    obtain ⟨w, hw, e⟩ := Option.bind_eq_some_iff.1 e
    obtain ⟨zs, h, rfl⟩ := Option.map_eq_some_iff.1 e
    cases i with
    | zero => simp at hi; subst hi; exact ⟨w, hw, rfl⟩
    | succ i =>
      rw [List.getElem?_cons_succ] at hi ⊢
      obtain ⟨w', h1, h2⟩ := ih h hi
      exact ⟨w', by rw [show j + (i + 1) = j + 1 + i by omega]; exact h1, h2⟩

end Repast.Mpi.Layers
