/-
Model of the drawing part of the bicluster viewer, `biclus_viz/PlotCreator.py:50-142`, `429-438`, `450-456`.

What matplotlib does with a matrix is not modelled: a panel is the list of the matrices drawn on it, from the
bottom to the top. `matshow`, `tight_layout`, `savefig` and `show` are taken not to fail; colours, sizes and the
placing of the panels (`plotInRows`, `aspect`) are left out.
-/
import Verif.Model.Biclus

namespace Verif

namespace Biclus

/-- What one call of `matshow` draws. -/
inductive Layer where
  /-- data, drawn in black and white -/
  | values (M : Dense ℚ)
  /-- numbers of biclusters, drawn in colour and translucent -/
  | colours (M : Dense ℕ)

/-- A figure: for each panel, the layers drawn on it, from the bottom to the top. -/
abbrev Figure := List (List Layer)

/-- What a call of the viewer can change: the files, the figures pyplot holds open, the figures that have been
shown on the screen. -/
structure Screen where
  files : String → Option Figure
  opened : List Figure
  shown : List Figure

/-- The keyword arguments, `biclus_viz/PlotCreator.py:50-62`. -/
structure PlotOptions where
  unordered : Bool := false
  ordered : Bool := true
  clusters : Bool := false
  transpose : Bool := false
  output : Option String := none
  show_ : Bool := false

/-- `axs[idx].matshow(..)`: another layer on the panel. -/
def addLayer (fig : Figure) (idx : ℕ) (l : Layer) : Figure := fig.modify idx (· ++ [l])

/-- `plotOriginalMatrix(axs=..)`, `biclus_viz/PlotCreator.py:450-456`. -/
def plotOriginalMatrix (m : BlockMatrix) (fig : Figure) (idx : ℕ) : Py Figure := do
  let M ← orderedOriginal m
  return addLayer fig idx (.values M)

/-- `plotMatrix(axs=..)`, `biclus_viz/PlotCreator.py:371-438`: the picture of the clusters is computed, then the
ordered matrix is drawn, then the picture of the clusters over it. -/
def plotMatrix (m : BlockMatrix) (fig : Figure) (idx : ℕ) : Py Figure := do
  let C ← clusterMatrix m
  let fig ← plotOriginalMatrix m fig idx
  return addLayer fig idx (.colours C)

/-- The exception, together with the figure that is left open. -/
abbrev Drawing := Except (PyErr × Figure) Figure

/-- A step of drawing; on an exception the figure stays as it was before the step. -/
def drawStep (want : Bool) (fig : Figure) (step : Figure → Py Figure) : Drawing :=
  if want then
    match step fig with
    | .ok fig' => .ok fig'
    | .error e => .error (e, fig)
  else .ok fig

/-- The drawing itself, `biclus_viz/PlotCreator.py:84-119`. Without a requested panel the grid has no rows or no
columns and `add_gridspec` raises `ValueError`, after the figure has been opened. When `plotMatrix` fails it
fails before it draws (`plotOriginalMatrix` draws last), so nothing of that panel is left. -/
def draw (o : PlotOptions) (m : BlockMatrix) : Drawing :=
  let numPlots := o.unordered.toNat + o.ordered.toNat + o.clusters.toNat
  if numPlots = 0 then .error (.valueError, [])
  else do
    let fig : Figure := List.replicate numPlots []
    let m ← if o.ordered || o.clusters then
        match order m with
        | .ok m' => .ok m'
        | .error e => .error (e, fig)
      else .ok m
    let fig ← drawStep o.unordered fig fun fig => .ok (addLayer fig 0 (.values m.original))
    let fig ← drawStep o.ordered fig fun fig =>
      plotOriginalMatrix m fig (o.unordered.toNat + o.ordered.toNat - 1)
    drawStep o.clusters fig fun fig => plotMatrix m fig (numPlots - 1)

/-- `plotClusteredMatrix`, `biclus_viz/PlotCreator.py:50-142`. `lp` and `rp` are the outcomes of the two shuffles
of the constructor. With `transpose=True` the function calls `plotBlock`, a name that does not exist.
`plt.close("all")` closes every figure, not just the new one; it is not reached after an exception. -/
def plotClusteredMatrix (o : PlotOptions) (A : Dense ℚ) (left right : List (List ℕ)) (lp rp : List ℕ)
    (s : Screen) : Py Figure × Screen :=
  if o.transpose then (.error .nameError, s)
  else
    match BlockMatrix.new left right A lp rp with
    | .error e => (.error e, s)
    | .ok m =>
      match draw o m with
      | .error (e, fig) => (.error e, { s with opened := s.opened ++ [fig] })
      | .ok fig =>
        let files := match o.output with
          | none => s.files
          | some f => Function.update s.files f (some fig)
        let shown := if o.show_ then s.shown ++ (s.opened ++ [fig]) else s.shown
        (.ok fig, { files, opened := [], shown })

end Biclus

end Verif
