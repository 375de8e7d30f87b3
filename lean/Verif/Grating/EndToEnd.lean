import Verif.Grating.General
import Verif.Grating.MultiEtch
/-
Model of `discretize_to_pixelated_grating`, spins/goos/grating.py: a continuous grating is discretised by a plan, and the pixelated
grating made from the result is evaluated.
-/
namespace Verif.Grating
variable {K : Type} [Field K] [LinearOrder K] [FloorRing K]

/-- The plan made by `discretize_to_pixelated_grating`: its action `GratingL2D` is run for the values `target` of the continuous
variable, and then the `PixelatedGrating` is evaluated with the two variables that the action has set. 329-366. `pixel` is the
argument `pixel_size` of the function; `g` has the arguments of the grating. -/
def discretizeAndDraw (g : PixGrating K) [FloorSemiring K] (target : List K) (pixel : K) (minFeatures : List K)
    (maxFeatures : Option (List K)) (start stop divisions : Nat) : Option (List (List K)) :=
  (General.gratingL2D target g.heightFracs pixel minFeatures maxFeatures start stop divisions g.useEdgeLocs).bind fun d =>
    g.eval d.value d.levels

end Verif.Grating
