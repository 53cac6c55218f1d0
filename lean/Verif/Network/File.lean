import Verif.Network.Violations

/-
Model of network files: `read_network` and `write_network` (`/repo/src/repast4py/network.py:883-1227`), for contexts that have no agents and no projections before
`read_network` is called.

Text is a list of characters. `json.dumps` and `json.loads` are arbitrary functions. The ids of the nodes of the graph, which Python writes as text and reads back with
`int`, are natural numbers; the unique id `(id, type, rank)` of an agent is represented by the id (the ids of a graph are distinct). The user's `create_agent` is an
arbitrary function `make` of the id, the type, the rank and the attributes. An exception is `none`.
-/
namespace Repast.Network
open Repast.Dict Repast.Context

variable {S A : Type}

abbrev Text := List Char

/-- `json.dumps` and `json.loads` -/
structure Json (A : Type) where
  dumps : Attr A → Text
  loads : Text → Option (Attr A)

/-- A node of the graph with its attributes: `agent_type`, if it has that attribute, and the others. -/
structure GNode (A : Type) where
  id : Nat
  type : Option Int
  attrs : Attr A

/-! ### Writing -/

/-- `str` of a number -/
def digits (n : Nat) : Text := Nat.toDigits 10 n

/-- network.py:1085-1094: the type of a node; a negative one is a `ValueError`. -/
def GNode.agentType (x : GNode A) : Option Nat :=
  match x.type with
  | none => some 0
  | some t => if t < 0 then none else some t.toNat

/-- network.py:1097-1098, 1108-1109 -/
def Json.suffix (J : Json A) (a : Attr A) : Text := if a.isEmpty then [] else ' ' :: J.dumps a

/-- network.py:1082-1101 `_write_node`: a line without the newline. -/
def Json.nodeLine (J : Json A) (x : GNode A × Nat) : Option Text :=
  x.1.agentType.map fun t => digits x.1.id ++ ' ' :: digits t ++ ' ' :: digits x.2 ++ J.suffix x.1.attrs

/-- network.py:1106-1112: a line of `_write_edges` without the newline. -/
def Json.edgeLine (J : Json A) (e : Nat × Nat × Attr A) : Text := digits e.1 ++ ' ' :: digits e.2.1 ++ J.suffix e.2.2

/-- network.py:1135-1136, 1151-1152: the first line without the newline. -/
def headLine (name : Text) (d : Bool) : Text := name ++ [' ', if d then '1' else '0']

/-- Each line is followed by a newline. -/
def unlines (ls : List Text) : Text := ls.flatMap fun l => l ++ ['\n']

/-- network.py:1134-1140, 1150-1157: the file, for nodes that were assigned to ranks. The nodes and the edges are in the order in which networkx lists them. -/
def Json.writeFile (J : Json A) (name : Text) (d : Bool) (nodes : List (GNode A × Nat)) (edges : List (Nat × Nat × Attr A)) : Option Text :=
  (nodes.mapM J.nodeLine).map fun ls => unlines (headLine name d :: ls ++ "EDGES".toList :: edges.map J.edgeLine)

/-! ### Reading: text -/

/-- White space. (Simplification: not the white space outside of ASCII, and not the control characters that Python regards as white space.) -/
def isSpace (c : Char) : Bool := c.isWhitespace

/-- `line.strip()` -/
def strip (l : Text) : Text := ((l.dropWhile isSpace).reverse.dropWhile isSpace).reverse

/-- `text.split(c)` -/
def splitAt (c : Char) : Text → List Text
  | [] => [[]]
  | x :: xs =>
    if x = c then [] :: splitAt c xs
    else match splitAt c xs with
      | [] => [[x]]
      | w :: ws => (x :: w) :: ws

/-- The lines of a text file, without the newlines at their ends. -/
def fileLines (t : Text) : List Text :=
  let ls := splitAt '\n' t
  if ls.getLast? = some [] then ls.dropLast else ls

/-- `int(text)`. (Simplification: other forms of numbers than digits, which are not written.) -/
def toInt (t : Text) : Option Nat :=
  let s := strip t
  if s.isEmpty then none else if s.all Char.isDigit then some (Nat.ofDigitChars 10 s 0) else none

/-- `_LINE_P.findall(line)` (network.py:907), the regular expression is `\{[^}]+\}|\S+`. The first argument bounds the number of steps. -/
def tokensN : Nat → Text → List Text
  | 0, _ => []
  | _ + 1, [] => []
  | f + 1, c :: cs =>
    let body := cs.takeWhile (fun x => decide (x ≠ '}'))
    let rest := cs.dropWhile (fun x => decide (x ≠ '}'))
    if c = '{' ∧ body ≠ [] ∧ rest ≠ [] then (c :: body ++ ['}']) :: tokensN f (rest.drop 1)
    else if isSpace c then tokensN f cs
    else (c :: cs.takeWhile (fun x => !isSpace x)) :: tokensN f (cs.dropWhile (fun x => !isSpace x))

def tokens (l : Text) : List Text := tokensN l.length l

/-- network.py:892-904 `_parse_graph_desc`: is the network directed? -/
def parseHead (l : Text) : Option Bool :=
  match splitAt ' ' l with
  | [_, x] => (toInt x).map fun i => decide (i ≠ 0)
  | _ => none

/-- network.py:913-919: id, type, rank and the attributes of a node. -/
def parseNode (l : Text) : Option (Nat × Nat × Nat × Option Text) :=
  match tokens l with
  | [a, b, c] => (toInt a).bind fun a => (toInt b).bind fun b => (toInt c).map fun c => (a, b, c, none)
  | [a, b, c, x] => (toInt a).bind fun a => (toInt b).bind fun b => (toInt c).map fun c => (a, b, c, some x)
  | _ => none

/-- network.py:946-952: the ends and the attributes of an edge. -/
def parseEdge (l : Text) : Option (Nat × Nat × Option Text) :=
  match tokens l with
  | [a, b] => (toInt a).bind fun a => (toInt b).map fun b => (a, b, none)
  | [a, b, x] => (toInt a).bind fun a => (toInt b).map fun b => (a, b, some x)
  | _ => none

/-- The attributes: `_EMPTY_DICT` or `json.loads` (network.py:922-924, 960-963, 1000-1003). -/
def Json.read (J : Json A) : Option Text → Option (Attr A)
  | none => some []
  | some t => J.loads t

/-! ### Reading: one rank -/

/-- network.py:884-889 `GraphData`, and the context. `agents` are the ids of the agents in the dictionary of that name; the agents are those in the context. -/
structure Reading (S A : Type) where
  cx : Cx S A
  agents : List Nat
  /-- `remote_agents`: the ranks -/
  remote : Dict Nat
  /-- `requested_agents` -/
  requested : List (Nat × Nat)
  edges : List (Nat × Nat × Option Text)

/-- network.py:911-934 `_parse_node`; `n` is the number of ranks. -/
def Reading.node (n : Nat) (J : Json A) (make : Nat → Nat → Nat → Attr A → S) (g : Reading S A) (x : Nat × Nat × Nat × Option Text) : Option (Reading S A) :=
  if x.2.2.1 = g.cx.rank ∨ n = 1 then
    (J.read x.2.2.2).map fun a => { g with cx := g.cx.add x.1 (make x.1 x.2.1 x.2.2.1 a), agents := g.agents ++ [x.1] }
  else some { g with remote := Dict.set g.remote x.1 x.2.2.1 }

/-- network.py:943-992 `_parse_edge`. The set `requested` is new for every edge. -/
def Reading.edge (J : Json A) (g : Reading S A) (x : Nat × Nat × Option Text) : Option (Reading S A) :=
  if x.1 ∈ g.agents ∧ x.2.1 ∈ g.agents then
    (J.read x.2.2).bind fun a => (g.cx.addEdge 0 x.1 x.2.1 a).map fun c => { g with cx := c }
  else if x.1 ∈ g.agents then
    (Dict.get g.remote x.2.1).map fun k => { g with requested := g.requested ++ [(x.2.1, k)], edges := g.edges ++ [x] }
  else if x.2.1 ∈ g.agents then
    (Dict.get g.remote x.1).map fun k => { g with requested := g.requested ++ [(x.1, k)], edges := g.edges ++ [x] }
  else some g

/-- network.py:1066-1074: one line; the first component of the accumulator is `parse_nodes`. -/
def Reading.line (n : Nat) (J : Json A) (make : Nat → Nat → Nat → Attr A → S) (acc : Bool × Reading S A) (l : Text) : Option (Bool × Reading S A) :=
  let l := strip l
  if acc.1 then
    if l = "EDGES".toList then some (false, acc.2)
    else (parseNode l).bind fun x => (acc.2.node n J make x).map fun g => (true, g)
  else (parseEdge l).bind fun x => (acc.2.edge J x).map fun g => (false, g)

/-- network.py:995-1003 `_create_edges`. -/
def Cx.createEdge (J : Json A) (c : Cx S A) (x : Nat × Nat × Option Text) : Option (Cx S A) := (J.read x.2.2).bind fun a => c.addEdge 0 x.1 x.2.1 a

/-! ### Reading: all ranks -/

/-- network.py:1056-1074: what rank `r` does with the file. -/
def readLines (n : Nat) (J : Json A) (make : Nat → Nat → Nat → Attr A → S) (t : Text) (r : Nat) : Option (Reading S A) :=
  match fileLines t with
  | [] => none
  | h :: ls => (parseHead h).bind fun d => (ls.foldlM (Reading.line n J make) (true, ⟨Cx.init r [d], [], [], [], []⟩)).map (·.2)

/-- network.py:1006-1079 `read_network` on all ranks. -/
def readNetwork (n : Nat) (J : Json A) (make : Nat → Nat → Nat → Attr A → S) (t : Text) : Option (World S A) :=
  let q := (List.range n).map (readLines n J make t)
  let x : Nat → Option (Reading S A) := fun r => q[r]?.bind id
  (each n (fun r => (x r).map (·.cx)) (World.init [])).bind fun w =>
    (requestAgents n (fun r => ((x r).map (·.requested)).getD []) w).bind fun w =>
      (each n (fun r => (((x r).map (·.edges)).getD []).foldlM (Cx.createEdge J) (w r)) w).bind fun w => synchronize n true w

/-! ### Where C44 is violated -/

/-- Attributes with one key, written as `{"0": …}`; a value is a number or a dictionary with a number. -/
inductive Value where
  | num (n : Nat)
  | dict (n : Nat)
  deriving DecidableEq

def Value.text : Value → Text
  | .num n => digits n
  | .dict n => "{\"1\": ".toList ++ digits n ++ ['}']

/-- `json.dumps` and `json.loads`, as far as they matter here: `loads` reads what `dumps` writes for the given dictionaries. -/
def someJson (as : List (Attr Value)) : Json Value :=
  let dumps : Attr Value → Text := fun a => '{' :: (a.flatMap fun e => '"' :: digits e.1 ++ "\": ".toList ++ e.2.text) ++ ['}']
  ⟨dumps, fun t => as.find? fun a => decide (dumps a = t)⟩

/-- The ids of the nodes of the network of a rank, after a graph was written and read. -/
def rewritten (n : Nat) (as : List (Attr Value)) (name : Text) (d : Bool) (nodes : List (GNode Value × Nat)) (edges : List (Nat × Nat × Attr Value)) : Option (World Nat Value) :=
  ((someJson as).writeFile name d nodes edges).bind fun t => readNetwork n (someJson as) (fun i _ _ _ => 10 * i) t

/-- Two nodes on rank 0 that have edges to a node on rank 1. -/
def joined : List (GNode Value × Nat) := [(⟨1, none, []⟩, 0), (⟨2, some 1, []⟩, 0), (⟨3, none, [(0, .num 5)]⟩, 1)]

/-- What should happen, and does. -/
theorem joined_read (d : Bool) :
    (rewritten 2 [[(0, .num 5)]] "net".toList d joined [(1, 3, [(0, .num 5)]), (1, 2, [])]).map (fun w => ((w 0).nodeIds 0, (w 1).nodeIds 0, (w 1).agent 3)) =
      some ([1, 2, 3], [3, 1], some 30) ∧
    (rewritten 2 [[(0, .num 5)]] "net".toList d joined [(1, 3, [(0, .num 5)]), (1, 2, [])]).map (fun w => [(w 0).edgeAttr 0 1 3, (w 1).edgeAttr 0 1 3, (w 0).edgeAttr 0 1 2]) =
      some [some [(0, .num 5)], some [(0, .num 5)], some []] := by
  cases d <;> refine ⟨?_, ?_⟩ <;> decide +kernel

/-- C44 is violated: a rank that has two edges to an agent of another rank requests this agent twice, and its network has two nodes for it. -/
theorem C44_violation_twice (d : Bool) :
    (rewritten 2 [] "net".toList d [(⟨1, none, []⟩, 0), (⟨2, none, []⟩, 0), (⟨3, none, []⟩, 1)] [(1, 3, []), (2, 3, [])]).map (fun w => ((w 0).nodeIds 0, (w 1).nodeIds 0)) =
      some ([1, 2, 3, 3], [3, 1, 2]) := by cases d <;> decide +kernel

/-- C44 is violated: a dictionary as the value of an attribute can be written but not read, for a node or for an edge. -/
theorem C44_violation_nested (d : Bool) :
    ((someJson [[(0, .dict 1)]]).writeFile "net".toList d [(⟨1, none, [(0, .dict 1)]⟩, 0)] []).isSome = true ∧
    (rewritten 1 [[(0, .dict 1)]] "net".toList d [(⟨1, none, [(0, .dict 1)]⟩, 0)] []).isNone = true ∧
    (rewritten 1 [[(0, .dict 1)]] "net".toList d [(⟨1, none, []⟩, 0)] [(1, 1, [(0, .dict 1)])]).isNone = true := by
  cases d <;> refine ⟨?_, ?_, ?_⟩ <;> decide +kernel

/-- C44 is violated: a network whose name has a space can be written but not read. -/
theorem C44_violation_name (d : Bool) :
    ((someJson []).writeFile "my net".toList d [(⟨1, none, []⟩, 0)] []).isSome = true ∧ (rewritten 1 [] "my net".toList d [(⟨1, none, []⟩, 0)] []).isNone = true := by
  cases d <;> refine ⟨?_, ?_⟩ <;> decide +kernel

end Repast.Network
