import Verif.Context.LocalProps

/-
C18: agents survive a checkpoint round trip. Model of checkpoint.py:46-63, 112-149.

Simplifications: what an agent's `save` returns is a value (a tuple that is not changed later), pickling a `Checkpoint` and loading it again gives an equal object,
and the loop over the generator that `restore_agents` returns does not call `save_agents` of the same object.
-/
namespace Repast.Checkpoint
open Repast.Dict Repast.Context

/-- checkpoint.py:59: the `agent_state` of a `Checkpoint`. -/
structure Agents (T : Type) where
  state : List T

/-- checkpoint.py:48-63 -/
def Agents.new {T : Type} : Agents T := ⟨[]⟩

/-- checkpoint.py:112-123 `save_agents`; `save` is the agents' method. -/
def Agents.saveAgents {T Ag : Type} (save : Ag → T) (k : Agents T) (agents : List Ag) : Agents T :=
  agents.foldl (fun k a => ⟨k.state ++ [save a]⟩) k

/-- checkpoint.py:125-149 `restore_agents`: what the generator yields. -/
def Agents.restoreAgents {T Ag : Type} (restore : T → Ag) (k : Agents T) : List Ag := k.state.map restore

theorem saveAgents_state {T Ag : Type} (save : Ag → T) (k : Agents T) (l : List Ag) : (k.saveAgents save l).state = k.state ++ l.map save := by
  unfold Agents.saveAgents
  induction l generalizing k with
  | nil => simp
  | cons a l ih => rw [List.foldl_cons, ih]; simp

/-- C18: if the callable that is passed to `restore_agents` makes an agent from what its `save` returned, `restore_agents` yields the agents that were saved by all
of the calls of `save_agents`, in that order, each in the state in which it was saved. An `Ag` is an agent in a state, `saves` are the agents that were passed to the calls. -/
theorem C18_round_trip {T Ag : Type} (save : Ag → T) (restore : T → Ag) (h : ∀ a, restore (save a) = a) (saves : List (List Ag)) :
    (saves.foldl (Agents.saveAgents save) Agents.new).restoreAgents restore = saves.flatten := by
  have : ∀ k : Agents T, (saves.foldl (Agents.saveAgents save) k).state = k.state ++ saves.flatten.map save := by
    induction saves with
    | nil => simp
    | cons l ls ih => intro k; rw [List.foldl_cons, ih, saveAgents_state]; simp
  unfold Agents.restoreAgents
  rw [this]
  simp [Agents.new, h, Function.comp_def]

example : ([[(1, 5), (2, 6)], [(1, 7)]].foldl (Agents.saveAgents (fun a : Nat × Nat => (a.2, a.1))) Agents.new).restoreAgents (fun t => (t.2, t.1)) =
    [(1, 5), (2, 6), (1, 7)] := by decide

/-- `ckp.save_agents(context.agents())`: the agents of the context and their states. -/
def agentsOf {S : Type} (c : Cx S) (shuf : List Nat → List Nat) : Option (List (Nat × S)) :=
  (c.agents shuf none none false).bind fun l => l.mapM fun u => (c.agent u).map fun s => (u, s)

/-- The restored agents are added to a new context. -/
def addAll {S : Type} (ty : Nat → Nat) (c : Cx S) (l : List (Nat × S)) : Cx S := l.foldl (fun c a => c.add ty a.1 a.2) c

theorem addAll_views {S : Type} (ty : Nat → Nat) (c : Cx S) (h : Views ty c) (l : List (Nat × S)) (hn : (l.map (·.1)).Nodup)
    (hd : ∀ a ∈ l, a.1 ∉ keys c.locals) :
    Views ty (addAll ty c l) ∧ (addAll ty c l).locals = c.locals ++ l := by
  unfold addAll
  induction l generalizing c with
  | nil => exact ⟨h, by simp⟩
  | cons a l ih =>
    rw [List.foldl_cons]
    have hset : (c.add ty a.1 a.2).locals = c.locals ++ [a] := by
      show set c.locals a.1 a.2 = _
      have : ∀ m : Dict S, a.1 ∉ keys m → set m a.1 a.2 = m ++ [a] := by
        intro m
        induction m with
        | nil => intro _; rfl
        | cons e m ih2 =>
          intro hm
          rw [keys, List.map_cons, List.mem_cons] at hm
          have h1 : e.1 ≠ a.1 := fun e' => hm (.inl e'.symm)
          have h2 : a.1 ∉ keys m := fun e' => hm (.inr e')
          simp [Dict.set, h1, ih2 h2]
      exact this _ (hd a (by simp))
    rw [List.map_cons, List.nodup_cons] at hn
    have := ih (c.add ty a.1 a.2) (h.add ty a.1 a.2) hn.2 (by
      intro b hb
      rw [hset, keys, List.map_append, List.mem_append]
      rintro (h1 | h1)
      · exact hd b (List.mem_cons_of_mem _ hb) h1
      · simp only [List.map_cons, List.map_nil, List.mem_singleton] at h1
        exact hn.1 (h1 ▸ List.mem_map_of_mem hb))
    rw [hset] at this
    exact ⟨this.1, by rw [this.2]; simp⟩

/-- C18: the population of a rank. After any history of the model on `n` ranks, the agents of a rank are saved, restored, and added to a new context. That has
the same agents, in the same order and with the same states, and the same agents of each type. -/
theorem C18_population {S : Type} (ty : Nat → Nat) {n : Nat} (grids : List GCfg) (ops : List (WOp S)) (w : Context.World S)
    (hw : wrun ty n (Context.World.init grids) ops = some w) {r : Nat} (hr : r < n)
    {T : Type} (save : Nat × S → T) (restore : T → Nat × S) (h : ∀ a, restore (save a) = a) (gs : List GCfg) (shuf : List Nat → List Nat) :
    ∃ l, agentsOf (w r) shuf = some l ∧
      let c := addAll ty (Cx.init r gs) ((Agents.new.saveAgents save l).restoreAgents restore)
      c.agents shuf none none false = (w r).agents shuf none none false ∧
      (∀ u, c.agent u = (w r).agent u) ∧
      (∀ t, c.containsType t = (w r).containsType t) ∧
      (∀ t, (w r).containsType t = true → c.agents shuf (some t) none false = (w r).agents shuf (some t) none false) ∧
      c.size [] = (w r).size [] := by
  have hv := Views.run ty hw r hr
  have hl : ∀ (m : Dict S), (∀ e ∈ m, get (w r).locals e.1 = some e.2) → ((keys m).mapM fun u => ((w r).agent u).map fun s => (u, s)) = some m := by
    intro m
    induction m with
    | nil => intro _; rfl
    | cons e m ih =>
      intro hm
      rw [keys, List.map_cons, List.mapM_cons]
      have h1 : (w r).agent e.1 = some e.2 := hm e (by simp)
      have h2 := ih (fun x hx => hm x (List.mem_cons_of_mem _ hx))
      rw [keys] at h2
      simp [h1, h2]
  refine ⟨(w r).locals, ?_, ?_⟩
  · show (some (keys (w r).locals)).bind _ = _
    exact hl _ (fun e he => get_of_mem hv.ok he)
  · intro c
    have h1 := C18_round_trip save restore h [(w r).locals]
    simp only [List.foldl_cons, List.foldl_nil, List.flatten_cons, List.flatten_nil, List.append_nil] at h1
    have h2 := addAll_views ty (Cx.init r gs) (Views.init ty r (gs.map GCfg.new)) (w r).locals hv.ok (by simp [Cx.start, keys])
    have hc : c = addAll ty (Cx.init r gs) (w r).locals := by show addAll _ _ _ = _; rw [h1]
    have hloc : c.locals = (w r).locals := by rw [hc, h2.2]; simp [Cx.init, Cx.start]
    have hvc : Views ty c := hc ▸ h2.1
    have hty : ∀ (c1 c2 : Cx S), Views ty c1 → Views ty c2 → c1.locals = c2.locals → ∀ t, c2.containsType t = true →
        ∃ l, get c1.byType t = some l ∧ get c2.byType t = some l ∧ 0 < l.length := by
      intro c1 c2 v1 v2 he t ht
      unfold Cx.containsType at ht
      cases hg : get c2.byType t with
      | none => rw [hg] at ht; simp at ht
      | some l =>
        rw [hg] at ht
        have hs := v2.same _ _ hg
        have hpos : 0 < l.length := by simpa using ht
        obtain ⟨u, hu⟩ := List.exists_mem_of_length_pos hpos
        have hu' := hu
        rw [hs, List.mem_filter] at hu'
        have htu : ty u = t := by simpa using hu'.2
        have := v1.has u (by rw [he]; exact hu'.1)
        rw [htu] at this
        obtain ⟨l', hl'⟩ := Option.isSome_iff_exists.1 this
        exact ⟨l, by rw [hl', v1.same _ _ hl', he, ← hs], rfl, hpos⟩
    refine ⟨by show some (keys c.locals) = some (keys (w r).locals); rw [hloc], by intro u; show get c.locals u = _; rw [hloc]; rfl, ?_, ?_, ?_⟩
    · intro t
      rw [Bool.eq_iff_iff]
      constructor
      · intro ht
        obtain ⟨l, -, -, hl⟩ := hty (w r) c hv hvc hloc.symm t ht
        obtain ⟨l, h3, -, hl⟩ := hty (w r) c hv hvc hloc.symm t ht
        unfold Cx.containsType; rw [h3]; simp [hl]
      · intro ht
        obtain ⟨l, h3, -, hl⟩ := hty c (w r) hvc hv hloc t ht
        unfold Cx.containsType; rw [h3]; simp [hl]
    · intro t ht
      obtain ⟨l, h3, h4, -⟩ := hty c (w r) hvc hv hloc t ht
      show get c.byType t = get (w r).byType t
      rw [h3, h4]
    · show some [(none, c.locals.length)] = some [(none, (w r).locals.length)]
      rw [hloc]

/-- A `Checkpoint` object that is used again keeps the agents that were saved before: every agent is restored twice. (`save_schedule`, `save_space` and
`save_network` replace what was saved before.) -/
theorem C18_used_again {T Ag : Type} (save : Ag → T) (restore : T → Ag) (h : ∀ a, restore (save a) = a) (l : List Ag) :
    ((Agents.new.saveAgents save l).saveAgents save l).restoreAgents restore = l ++ l := by
  simpa using C18_round_trip save restore h [l, l]

example : (wrun (S := Nat) (· % 2) 2 (Context.World.init []) [.add 0 1 5, .add 1 2 6, .add 1 3 6, .move fun r => if r = 1 then [(3, 0)] else []]).bind
    (fun w => agentsOf (w 0) id) = some [(1, 5), (3, 6)] := by decide +kernel

end Repast.Checkpoint
