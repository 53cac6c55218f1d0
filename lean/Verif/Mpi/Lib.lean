import Verif.Mpi.Model
import Verif.Context.Model

/-! Programs of ranks that are composed of local statements and exchanges of messages, and what they do when all ranks run at the same speed. -/
namespace Repast.Mpi
open Repast.Context

variable {α β γ : Type} {n : Nat}

/-- One after the other. -/
def Prog.bind : Prog α → (α → Prog β) → Prog β
  | .ret a, q => q a
  | .raise, _ => .raise
  | .coll site T m k, q => .coll site T m fun l => (k l).bind q

/-- Something that a rank does by itself; `none` is an exception. -/
def Prog.lift : Option α → Prog α
  | some a => .ret a
  | none => .raise

/-- A collective operation. -/
def Prog.call (site : String) {T : Type} (m : T) : Prog (List T) := .coll site T m .ret

/-- A loop. -/
def Prog.forM {ι : Type} (body : ι → α → Prog α) : List ι → α → Prog α
  | [], a => .ret a
  | i :: is, a => (body i a).bind fun a => Prog.forM body is a

/-- `comm.alltoall`: rank `r` gets what the ranks have sent it. `l` are the messages of the ranks with their destinations. -/
def delivered {M : Type} (n r : Nat) (l : List (List (Nat × M))) : List (Nat × M) := recv n (fun s => l[s]?.getD []) r

/-- A rank sends messages, and processes those that it receives. -/
def Prog.exchange {M : Type} (site : String) (n r : Nat) (send : α → Option (α × List (Nat × M))) (recv1 : α → Nat × M → Option α) (a : α) : Prog α :=
  (Prog.lift (send a)).bind fun x => (Prog.call site x.2).bind fun l => Prog.lift ((delivered n r l).foldlM recv1 x.1)

theorem Lock.congr {ps qs : Nat → Prog α} {o : Option (Nat → α)} (h : Lock n ps o) (e : ∀ i < n, qs i = ps i) : Lock n qs o := by
  cases h with
  | done h => exact .done fun i hi => by rw [e i hi, h i hi]
  | raised h => obtain ⟨i, hi, h⟩ := h; exact .raised ⟨i, hi, by rw [e i hi, h]⟩
  | round h h' =>
    refine .round ?_ h'
    obtain ⟨site, T, m, k, h⟩ := h
    exact ⟨site, T, m, k, fun i hi => ⟨by rw [e i hi, (h i hi).1], (h i hi).2⟩⟩

/-- One after the other: after the first part the ranks have the contexts `f`. -/
theorem Lock.bind {ps : Nat → Prog α} {q : Nat → α → Prog β} {o : Option (Nat → α)} {o' : (Nat → α) → Option (Nat → β)} (h : Lock n ps o)
    (h' : ∀ f, o = some f → Lock n (fun i => q i (f i)) (o' f)) : Lock n (fun i => (ps i).bind (q i)) (o.bind o') := by
  induction h with
  | done h => exact (h' _ rfl).congr fun i hi => by rw [h i hi]; rfl
  | raised h => obtain ⟨i, hi, h⟩ := h; exact .raised ⟨i, hi, by rw [h]; rfl⟩
  | @round ps ps' o hr _ ih =>
    obtain ⟨site, T, m, k, hr⟩ := hr
    refine .round ⟨site, T, m, fun i l => (k i l).bind (q i), fun i hi => ⟨?_, rfl⟩⟩ ?_
    · show (ps i).bind (q i) = _
      rw [(hr i hi).1]; rfl
    · exact (ih h').congr fun i hi => by rw [(hr i hi).2]

theorem Halts.congr {i : Nat} {ps qs : Nat → Prog α} (h : Halts n i ps) (hi : i < n) (e : ∀ i < n, qs i = ps i) : Halts n i qs := by
  cases h with
  | stuck h1 h2 =>
    refine .stuck ?_ (by rw [e i hi]; exact h2)
    rintro ⟨site, T, m, hm⟩
    exact h1 ⟨site, T, m, fun j hj => by rw [← e j hj]; exact hm j hj⟩
  | round hr h =>
    refine .round ?_ h
    obtain ⟨site, T, m, k, hr⟩ := hr
    exact ⟨site, T, m, k, fun j hj => ⟨by rw [e j hj, (hr j hj).1], (hr j hj).2⟩⟩

/-- A rank waits for ever in the second part. -/
theorem Halts.bind {i : Nat} {ps : Nat → Prog α} {q : Nat → α → Prog β} {f : Nat → α} (h : Lock n ps (some f)) (hi : i < n) (h' : Halts n i (fun j => q j (f j))) : Halts n i (fun j => (ps j).bind (q j)) := by
  generalize ho : some f = o at h
  induction h with
  | done h => cases ho; exact h'.congr hi fun j hj => by rw [h j hj]; rfl
  | raised => cases ho
  | @round ps ps' o hr _ ih =>
    obtain ⟨site, T, m, k, hr⟩ := hr
    refine .round ⟨site, T, m, fun j l => (k j l).bind (q j), fun j hj => ⟨?_, rfl⟩⟩ ?_
    · show (ps j).bind (q j) = _
      rw [(hr j hj).1]; rfl
    · exact (ih ho).congr hi fun j hj => by rw [(hr j hj).2]

theorem Halts.differ {i j k : Nat} {ps : Nat → Prog α} (hj : j < n) (hk : k < n) (h : (ps j).site ≠ (ps k).site) (ho : ((ps i).offer).isSome = true) : Halts n i ps := by
  refine .stuck ?_ ho
  rintro ⟨site, T, m, hm⟩
  refine h ?_
  unfold Prog.site
  rw [hm j hj, hm k hk]; rfl

/-- The result, seen differently. -/
theorem Lock.bind_ret {ps : Nat → Prog α} {g : Nat → α → β} {o : Option (Nat → α)} {o' : (Nat → α) → (Nat → β)} (h : Lock n ps o) (hg : ∀ f, o = some f → ∀ i < n, o' f i = g i (f i)) :
    Lock n (fun i => (ps i).bind fun a => .ret (g i a)) (o.map o') := by
  have := Lock.bind (q := fun i a => .ret (g i a)) (o' := fun f => some (o' f)) h fun f e => .done fun i hi => by rw [hg f e i hi]
  cases o <;> exact this

theorem Lock.ofSome {ps : Nat → Prog α} {f g : Nat → α} (h : Lock n ps (some f)) (e : ∀ i < n, f i = g i) : Lock n ps (some g) := by
  generalize ho : some f = o at h
  induction h with
  | done h => cases ho; exact .done fun i hi => by rw [h i hi, e i hi]
  | raised => cases ho
  | round hr _ ih => exact .round hr (ih ho)

/-- Each rank does something by itself. -/
theorem Lock.lift {F : Nat → Option α} {f : Nat → α} (h : ∀ i < n, F i = some (f i)) : Lock n (fun i => Prog.lift (F i)) (some f) :=
  .done fun i hi => by rw [h i hi]; rfl

theorem Lock.lift_none {F : Nat → Option α} (h : ∃ i < n, F i = none) : Lock n (fun i => Prog.lift (F i)) none := by
  obtain ⟨i, hi, h⟩ := h
  exact .raised ⟨i, hi, by rw [h]; rfl⟩

theorem Lock.call {site : String} {T : Type} {m : Nat → T} : Lock n (fun i => Prog.call site (m i)) (some fun _ => (List.range n).map m) :=
  .round ⟨site, T, m, fun _ => .ret, fun _ _ => ⟨rfl, rfl⟩⟩ (.done fun _ _ => rfl)

/-- A loop of all ranks. `Z` holds before each turn. -/
theorem Lock.forM {ι : Type} (Z : (Nat → α) → Prop) {body : Nat → ι → α → Prog α} {F : ι → (Nat → α) → Option (Nat → α)} (hb : ∀ j w, Z w → Lock n (fun i => body i j (w i)) (F j w))
    (hz : ∀ j w w', Z w → F j w = some w' → Z w') : ∀ (js : List ι) (w : Nat → α), Z w → Lock n (fun i => Prog.forM (body i) js (w i)) (js.foldlM (fun w j => F j w) w) := by
  intro js
  induction js with
  | nil => intro w _; exact .done fun _ _ => rfl
  | cons j js ih =>
    intro w hw
    rw [List.foldlM_cons, Option.bind_eq_bind]
    exact (hb j w hw).bind fun f e => ih f (hz j w f hw e)

/-! ### Exchanges of messages -/

/-- Each rank does something by itself: `Context.each`, `Network.each` and `Mixed.each`. -/
def eachOf (n : Nat) (f : Nat → Option α) (w : Nat → α) : Option (Nat → α) :=
  let l := (List.range n).map f
  if l.all (·.isSome) then some (fun r => (l[r]?.bind id).getD (w r)) else none

theorem eachOf_some {f : Nat → Option α} {w w' : Nat → α} (h : eachOf n f w = some w') : ∀ i < n, f i = some (w' i) := by
  intro i hi
  unfold eachOf at h
  simp only at h
  split at h
  · next ha =>
    cases h
    have hf : (f i).isSome = true := List.all_eq_true.1 ha (f i) (List.mem_map.2 ⟨i, List.mem_range.2 hi, rfl⟩)
    show f i = some ((((List.range n).map f)[i]?.bind id).getD (w i))
    rw [List.getElem?_map, List.getElem?_range hi]
    simp only [Option.map_some, Option.bind_some, id_eq]
    cases e : f i with
    | none => rw [e] at hf; cases hf
    | some x => rfl
  · cases h

theorem eachOf_none {f : Nat → Option α} {w : Nat → α} (h : eachOf n f w = none) : ∃ i < n, f i = none := by
  unfold eachOf at h
  simp only at h
  split at h
  · cases h
  · next ha =>
    simp only [List.all_map, List.all_eq_true, Function.comp, List.mem_range] at ha
    refine Classical.byContradiction fun hc => ha fun i hi => ?_
    cases e : f i with
    | none => exact absurd ⟨i, hi, e⟩ hc
    | some x => rfl

theorem eachOf_congr {f g : Nat → Option α} (h : ∀ i < n, f i = g i) (w : Nat → α) : eachOf n f w = eachOf n g w := by
  unfold eachOf
  have : (List.range n).map f = (List.range n).map g := List.map_congr_left fun i hi => h i (List.mem_range.1 hi)
  rw [this]

theorem Lock.each (f : Nat → Option α) (w : Nat → α) : Lock n (fun i => Prog.lift (f i)) (eachOf n f w) := by
  cases e : eachOf n f w with
  | some w' => exact Lock.lift (eachOf_some e)
  | none => exact Lock.lift_none (eachOf_none e)

/-- Each rank does something, with a result that is used later. -/
theorem Lock.split {M : Type} {F : Nat → Option (α × M)} {out : Nat → M} {k : Nat → α × M → Prog β} {o' : (Nat → α) → Option (Nat → β)} {w : Nat → α} (ho : ∀ i < n, ∀ x, F i = some x → out i = x.2)
    (h : ∀ w', (∀ i < n, F i = some (w' i, out i)) → Lock n (fun i => k i (w' i, out i)) (o' w')) :
    Lock n (fun i => (Prog.lift (F i)).bind (k i)) ((eachOf n (fun r => (F r).map (·.1)) w).bind o') := by
  cases e : eachOf n (fun r => (F r).map (·.1)) w with
  | some w' =>
    have e := eachOf_some e
    have hF : ∀ i < n, F i = some (w' i, out i) := by
      intro i hi
      have := e i hi
      cases ef : F i with
      | none => rw [ef] at this; cases this
      | some x =>
        rw [ef] at this
        rw [ho i hi x ef, ← Option.some.inj this]
    refine (h w' hF).congr fun i hi => ?_
    rw [hF i hi]; rfl
  | none =>
    obtain ⟨i, hi, e⟩ := eachOf_none e
    rw [Option.map_eq_none_iff] at e
    exact .raised ⟨i, hi, by rw [e]; rfl⟩

/-- The ranks go on with what they have contributed. -/
theorem Lock.called {site : String} {T : Type} {m : Nat → T} {k : Nat → List T → Prog α} {o : Option (Nat → α)} (h : Lock n (fun i => k i ((List.range n).map m)) o) :
    Lock n (fun i => (Prog.call site (m i)).bind (k i)) o :=
  .round ⟨site, T, m, k, fun _ _ => ⟨rfl, rfl⟩⟩ h

theorem flatMap_congr {γ δ : Type} {l : List γ} {f g : γ → List δ} (h : ∀ a ∈ l, f a = g a) : l.flatMap f = l.flatMap g := by
  induction l with
  | nil => rfl
  | cons a l ih => rw [List.flatMap_cons, List.flatMap_cons, h a List.mem_cons_self, ih fun b hb => h b (List.mem_cons_of_mem _ hb)]

theorem recv_congr {M : Type} {f g : Nat → List (Nat × M)} (h : ∀ i < n, f i = g i) (r : Nat) : recv n f r = recv n g r := by
  unfold recv
  exact flatMap_congr fun i hi => by rw [h i (List.mem_range.1 hi)]

theorem delivered_map {M : Type} (out : Nat → List (Nat × M)) (r : Nat) : delivered n r ((List.range n).map out) = recv n out r := by
  unfold delivered
  refine recv_congr (fun i hi => ?_) r
  rw [List.getElem?_map, List.getElem?_range hi]; rfl

/-- `Network.exchange` and `Mixed.exchange`. -/
def exchangeOf {M : Type} (n : Nat) (send : α → Option (α × List (Nat × M))) (recv1 : α → Nat × M → Option α) (w : Nat → α) : Option (Nat → α) :=
  let q := (List.range n).map fun r => send (w r)
  let out : Nat → List (Nat × M) := fun r => sent (q[r]?.bind id)
  (eachOf n (fun r => (q[r]?.bind id).map (·.1)) w).bind fun w => eachOf n (fun r => (recv n out r).foldlM recv1 (w r)) w

theorem at_range {β : Type} (f : Nat → Option β) {i : Nat} (hi : i < n) : (((List.range n).map f)[i]?.bind id) = f i := by
  rw [List.getElem?_map, List.getElem?_range hi]; rfl

theorem Lock.exchange {M : Type} (site : String) (send : α → Option (α × List (Nat × M))) (recv1 : α → Nat × M → Option α) (w : Nat → α) :
    Lock n (fun i => Prog.exchange site n i send recv1 (w i)) (exchangeOf n send recv1 w) := by
  unfold exchangeOf
  simp only
  rw [eachOf_congr (g := fun r => (send (w r)).map (·.1)) fun i hi => by rw [at_range (fun r => send (w r)) hi]]
  refine Lock.split (out := fun r => sent (send (w r))) (fun i hi x e => by rw [e]; rfl) fun w' hw' => ?_
  refine Lock.called ?_
  rw [eachOf_congr (g := fun r => (recv n (fun r => sent (send (w r))) r).foldlM recv1 (w' r)) fun i hi => by
    rw [recv_congr (fun j hj => by rw [at_range (fun r => send (w r)) hj])]]
  exact (Lock.each _ _).congr fun i hi => by rw [delivered_map]

end Repast.Mpi
