import Verif.Context.Model
import Verif.Tree.Model
import Verif.Topology.Buffer

/-!
Model of the shared continuous spaces of repast4py 1.1.2: the class `SharedCSpace` (space.py:272-434) and the C++ template it is built on
(distributed_space.h), which is the one of the shared grids, with the continuous space of `Verif/Tree` as the underlying space.

Simplifications: coordinates are exact rational numbers. A crash of the process (the null tree of a one-dimensional space) is a state in which nothing is in the space and
every further call fails.
-/
namespace Repast.Context
open Repast.Space Repast.Topology Repast.Tree

/-- distributed_space.h:85-94, with a continuous space. -/
structure CDSp where
  cs : CS
  oob : Nat → Option (Nat × CPt)

/-- distributed_space.h:268-295: `move`; `none`: a crash. -/
def cdmove (c : CCfg) (local_ : Box) (all : List (Box × Nat)) (s : CDSp) (a : Nat) (pt : CPt) : Option (CDSp × Res CPt) :=
  (cmove c s.cs a pt).map fun r =>
    match r.2 with
    | .loc (some q) =>
      let oob := upd s.oob a none
      let oob := if local_.containsC q then oob
        else match all.find? (fun b => b.1.containsC q) with
          | some (_, k) => upd oob a (some (k, q))
          | none => oob
      ({ cs := r.1, oob := oob }, r.2)
    | _ => ({ s with cs := r.1 }, r.2)

/-- distributed_space.h:215-266: the other methods. -/
def cdstep (c : CCfg) (local_ : Box) (all : List (Box × Nat)) (s : CDSp) : Op CPt → Option (CDSp × Res CPt)
  | .move a pt => cdmove c local_ all s a pt
  | .remove a => (cremove c s.cs a).map fun r => ({ cs := r.1, oob := upd s.oob a none }, .bool r.2)
  | o => (cstep c s.cs o).map fun r => ({ s with cs := r.1 }, r.2)

/-- space.py:305-310: the arguments of a shared continuous space. -/
structure CSCfg where
  topo : Topo
  single : Bool
  buf : Nat
  thr : Int

/-- The continuous space of every rank: its bounds are those of the whole space (distributed_space.h:146-147). -/
def CSCfg.space (g : CSCfg) : CCfg := cspace g.topo.box g.topo.periodic g.single g.thr

/-- A shared continuous space on one rank; `none`: the process has crashed. -/
structure CSpaceSp where
  cfg : CSCfg
  st : Option CDSp

/-- A new space. -/
def CSCfg.new (g : CSCfg) : CSpaceSp := { cfg := g, st := some { cs := CS.init g.space, oob := fun _ => none } }

/-- A call of the C++ space of the rank. -/
def CSpaceSp.call (r : Nat) (g : CSpaceSp) (o : Op CPt) : CSpaceSp × Res CPt :=
  match g.st.bind fun s => cdstep g.cfg.space (g.cfg.topo.bounds r) (g.cfg.topo.allBounds r) s o with
  | none => ({ g with st := none }, .error)
  | some x => ({ g with st := some x.1 }, x.2)

/-- space.py:384-385: the box of a buffer. -/
def Rng.box (g : Rng) : Box := { xmin := g.x0, xext := g.x1 - g.x0, ymin := g.y0, yext := g.y1 - g.y0, zmin := g.z0, zext := g.z1 - g.z0 }

/-- A loop that fails if one of its steps does. -/
def collect {α β : Type} (f : α → Option β) : List α → Option (List β)
  | [] => some []
  | a :: l => match f a with
    | none => none
    | some b => (collect f l).map (b :: ·)

/-- space.py:386-388: an agent and its location (`get_location`; an agent without one fails). -/
def withPt (s : CS) (a : Nat) : Option (Nat × CPt) :=
  match s.agents a with
  | some (some k) => some (a, s.pts k)
  | _ => none

/-- space.py:365-390 `_fill_send_data`: the agents (with their locations) sent to rank `k`. -/
def csendTo (c : CCfg) (bufs : List (Nat × Rng)) (s : CS) (k : Nat) : Option (List (Nat × CPt)) :=
  (collect (fun b : Nat × Rng => (getWithin c s (Rng.box b.2)).bind (collect (withPt s))) (bufs.filter (fun b => b.1 = k))).map List.flatten

/-- Shared continuous spaces. `clear` is distributed_space.h:307-316. -/
instance : Proj CSpaceSp CPt where
  bufSize g := g.cfg.buf
  where_ g u := g.st.bind fun s => (s.cs.agents u).map fun o => o.map s.cs.pts
  oob g u := g.st.bind fun s => s.oob u
  add r g u := (g.call r (.add u)).1
  remove r g u := (g.call r (.remove u)).1
  move r g u pt := match g.call r (.move u pt) with
    | (_, .error) => none
    | (g, _) => some g
  clear _ g := { g with st := g.st.map fun s => { s with oob := fun _ => none } }
  sends r n g := g.st.bind fun s => (g.cfg.topo.buffers r g.cfg.buf).bind fun bs =>
    (collect (fun k => (csendTo g.cfg.space bs s.cs k).map fun l => l.map fun m => (k, m.1, m.2)) (List.range n)).map List.flatten

end Repast.Context
