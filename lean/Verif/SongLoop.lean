import Verif.Reader
import Verif.Graph

/-!
The loop of the builder over a song (`for s in song: … song[s] …`).

`iter(song)` is an iterator over the live list of track numbers, and `song[s]` may insert a number into that list while
the loop runs.
-/

namespace NGC

/-- `for s in song:` with a body that works on `song[s]` (midi_graph_builder.py 518-567; midi_sequences.py 190-228,
263-265; sorted_dict.py 36-69). The iterator holds a position in the live list `_keys`: after the body it moves one place
on in the list as it is then. `fresh k` is the track created on demand for number `k`. The second and third use of
`song[s]` in the body find the number known and give the same track (`Tracks.getItem_again`). The first argument is
fuel, see `Tracks.loop`. -/
def Tracks.loopGo {V σ : Type} (fresh : Int → V) (body : σ → V → Py σ) :
    Nat → Nat → Tracks V → σ → Py (σ × Tracks V)
  | 0, _, t, a => .ok (a, t)
  | n + 1, i, t, a =>
    match t.iter[i]? with
    | none => .ok (a, t)
    | some k => do
      let r ← t.getItem (fresh k) k
      let a' ← body a r.1
      loopGo fresh body n (i + 1) r.2 a'

/-- The loop, with enough fuel: at most 128 numbers can be made known (`C172_loop_ends`). -/
def Tracks.loop {V σ : Type} (fresh : Int → V) (body : σ → V → Py σ) (t : Tracks V) (a : σ) : Py (σ × Tracks V) :=
  loopGo fresh body (t.len + 129) 0 t a

/-- `build` of a song (midi_graph_builder.py 470-577); see `build` for the tracks of a song given as a list. -/
def buildSong (env : PyEnv) (b : Builder) (s : Song) (o : BuildOpts) (perInstr : Bool := true) : Py (Builder × Song) := do
  let r ← s.tracks.loop s.defaultTrack (buildTrack env o perInstr) (b, none)
  match r.1.2 with
  | some g =>
    if perInstr then .ok (r.1.1, { s with tracks := r.2 })
    else do
      let d ← fromNetworkx g
      .ok ({ r.1.1 with pyg := r.1.1.pyg ++ [d], sub := r.1.1.sub ++ [g] }, { s with tracks := r.2 })
  | none => .ok (r.1.1, { s with tracks := r.2 })

end NGC
