import Verif.Py

/-!
Model of the graph traversal of the LSTM examples (example03_lstm.py, the same in example03a_lstm.py). A graph is the list of its directed
edges, as the columns of `edge_index`, with one number per edge. `heapq` is modelled by its contract: `heappop` removes a least pair
`(dist, node)`, distances first (equal pairs are indistinguishable). Edge attributes with several columns are left out.
-/

namespace NGC

/-- `graph.edge_index`, column by column, and `graph.edge_attr` (example03_lstm.py 503, 518). -/
structure TravGraph where
  edges : List (Int × Int)
  attr : Option (List ℚ)
  deriving DecidableEq

/-- The order of the heap: Python's comparison of pairs. -/
def heapLt (p q : ℚ × Int) : Bool := decide (p.1 < q.1) || (decide (p.1 = q.1) && decide (p.2 < q.2))

/-- A least entry of the heap with head `m`. -/
def heapMin : ℚ × Int → List (ℚ × Int) → ℚ × Int
  | m, [] => m
  | m, p :: rest => if heapLt p m then heapMin p rest else heapMin m rest

/-- `heapq.heappop(pq)` on a non-empty heap (example03_lstm.py 506). -/
def heapPop (m : ℚ × Int) (rest : List (ℚ × Int)) : (ℚ × Int) × List (ℚ × Int) :=
  (heapMin m rest, (m :: rest).erase (heapMin m rest))

/-- The variables of `dijkstra_traversal2` (example03_lstm.py 498-503). -/
structure TravState where
  visited : List Int
  pq : List (ℚ × Int)
  nodeSeq : List Int
  edgeSeq : List (Int × Int)
  deriving DecidableEq

namespace TravGraph

/-- `edge_index[1][edge_index[0] == node].tolist()` (example03_lstm.py 510). -/
def neighbors (g : TravGraph) (node : Int) : List Int :=
  (g.edges.filter (fun e => decide (e.1 = node))).map (·.2)

/-- `graph.edge_attr[i]` (example03_lstm.py 518). -/
def attrAt (g : TravGraph) (i : Nat) : Py ℚ :=
  match g.attr with
  | none => .error .type
  | some l =>
    match l[i]? with
    | none => .error .index
    | some x => .ok x

/-- The push for one unvisited neighbour: the first matching edge gives the weight (example03_lstm.py 514-519). -/
def push (g : TravGraph) (dist : ℚ) (node neighbor : Int) (st : TravState) : Py TravState :=
  match g.edges.findIdx? (fun e => decide (e.1 = node) && decide (e.2 = neighbor)) with
  | none => .ok st
  | some i => do
    let w ← g.attrAt i
    .ok { st with pq := st.pq ++ [(dist + w, neighbor)] }

/-- The loop over the neighbours (example03_lstm.py 511-519). -/
def visitNeighbors (g : TravGraph) (dist : ℚ) (node : Int) : List Int → TravState → Py TravState
  | [], st => .ok st
  | v :: rest, st => do
    let st1 := { st with edgeSeq := st.edgeSeq ++ [(node, v)] }
    let st2 ← if v ∈ st1.visited then .ok st1 else g.push dist node v st1
    visitNeighbors g dist node rest st2

/-- One round of the loop for the entry `p` taken from the heap (example03_lstm.py 507-519). -/
def round (g : TravGraph) (p : ℚ × Int) (st : TravState) : Py TravState :=
  if p.2 ∈ st.visited then .ok st
  else g.visitNeighbors p.1 p.2 (g.neighbors p.2) { st with visited := p.2 :: st.visited, nodeSeq := st.nodeSeq ++ [p.2] }

/-- `while pq:` (example03_lstm.py 505-519); `none` means that the given number of rounds was not enough. -/
def loop (g : TravGraph) : Nat → TravState → Py (Option TravState)
  | fuel, st =>
    match st.pq with
    | [] => .ok (some st)
    | m :: rest =>
      match fuel with
      | 0 => .ok none
      | fuel + 1 => do
        let r ← g.round (heapPop m rest).1 { st with pq := (heapPop m rest).2 }
        loop g fuel r

/-- `dijkstra_traversal2(graph, start_node)` with a bound on the number of rounds (example03_lstm.py 494-521). -/
def traverse (g : TravGraph) (fuel : Nat) (start : Int) : Py (Option (List Int × List (Int × Int))) := do
  let r ← g.loop fuel { visited := [], pq := [(0, start)], nodeSeq := [], edgeSeq := [] }
  .ok (r.map (fun st => (st.nodeSeq, st.edgeSeq)))

end TravGraph
end NGC
