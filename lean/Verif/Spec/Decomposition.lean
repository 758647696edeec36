import Verif.Model.EulerSphere
import Verif.Spec.Cube

/-!
# Specification: a field on six whole panels and the parts of it that many processes hold

Six processes hold one panel each.  With `6 k²` processes each panel is cut into `k × k` tiles; the process at row `a` and column `b` of a
panel holds the elements with rows `a N … a N + N - 1` and columns `b N … b N + N - 1`.
-/

namespace WxVerif.Spec.Decomposition

open WxVerif.Cube
open WxVerif.ShallowWater (Grid Field Topography)
open WxVerif.EulerSphere (Atm Field3 Floor ForcingData)

/-- the same grid on six processes -/
def whole (g : Grid) : Grid := { g with k := 1, N := g.k * g.N }

variable (g : Grid)

/-- the panel of process `r` -/
def panelOf (r : Nat) : Nat := (placeOf g.k r).panel
/-- row, in the panel, of element row `ej` of process `r`; also of the position or interface `ej` -/
def rowOf (r ej : Nat) : Nat := (placeOf g.k r).row * g.N + ej
/-- column, in the panel, of element column `ei` of process `r`; also of the position or interface `ei` -/
def colOf (r ei : Nat) : Nat := (placeOf g.k r).col * g.N + ei

/-- `Q` is, process by process, the state `W` given on whole panels: the same value at every solution point -/
def Holds (Q W : Field) : Prop :=
  ∀ r < 6 * (g.k * g.k), ∀ ej < g.N, ∀ ei < g.N, ∀ v ≤ 2, ∀ c < g.n * g.n, Q r ej ei v c = W (panelOf g r) (rowOf g r ej) (colOf g r ei) v c

/-- element `(ej, ei)` of process `r` of grid `g` and element `(ej', ei')` of process `r'` of grid `g'` are the same element of the sphere -/
def SameElement (g g' : Grid) (r ej ei r' ej' ei' : Nat) : Prop :=
  panelOf g r = panelOf g' r' ∧ rowOf g r ej = rowOf g' r' ej' ∧ colOf g r ei = colOf g' r' ei'

/-- the same elements and points on the same sphere, cut into tiles in two ways -/
structure SameSphere (g g' : Grid) : Prop where
  elements : g.k * g.N = g'.k * g'.N
  n : g.n = g'.n
  pts : g.pts = g'.pts
  radius : g.radius = g'.radius
  rotation : g.rotation = g'.rotation
  orient : g.orient = g'.orient

/-- the position and the side face an element of the tile: the `true` side of positions `0 … N` and the `false` side of `1 … N + 1` -/
def Inner (N p : Nat) (s : Bool) : Prop := (s = true ∧ p ≤ N) ∨ (s = false ∧ 1 ≤ p ∧ p ≤ N + 1)

/-- `t'` is, process by process, the topography `t` given on whole panels -/
structure HoldsTopo (t' t : Topography) : Prop where
  h : ∀ r < 6 * (g.k * g.k), ∀ ej < g.N, ∀ ei < g.N, ∀ c < g.n * g.n, t'.h r ej ei c = t.h (panelOf g r) (rowOf g r ej) (colOf g r ei) c
  itfI : ∀ r < 6 * (g.k * g.k), ∀ ej < g.N, ∀ p s, Inner g.N p s → ∀ l < g.n,
    t'.itfI r ej p s l = t.itfI (panelOf g r) (rowOf g r ej) (colOf g r p) s l
  itfJ : ∀ r < 6 * (g.k * g.k), ∀ ei < g.N, ∀ p s, Inner g.N p s → ∀ l < g.n,
    t'.itfJ r p ei s l = t.itfJ (panelOf g r) (rowOf g r p) (colOf g r ei) s l
  dzdx1 : ∀ r < 6 * (g.k * g.k), ∀ ej < g.N, ∀ ei < g.N, ∀ c < g.n * g.n, t'.dzdx1 r ej ei c = t.dzdx1 (panelOf g r) (rowOf g r ej) (colOf g r ei) c
  dzdx2 : ∀ r < 6 * (g.k * g.k), ∀ ej < g.N, ∀ ei < g.N, ∀ c < g.n * g.n, t'.dzdx2 r ej ei c = t.dzdx2 (panelOf g r) (rowOf g r ej) (colOf g r ei) c

/-- the same 3D grid on six processes -/
def whole3 (g : Atm) : Atm := { g with k := 1, N := g.k * g.N }

/-- `Q` is, process by process, the 3D state `W` given on whole panels -/
def Holds3 (g : Atm) (Q W : Field3) : Prop :=
  ∀ r < 6 * (g.k * g.k), ∀ ek < g.nz, ∀ ej < g.N, ∀ ei < g.N, ∀ v ≤ 4, ∀ c < g.n * g.n * g.n,
    Q r ek ej ei v c = W (panelOf g.toGrid r) ek (rowOf g.toGrid r ej) (colOf g.toGrid r ei) v c

/-- `f'` is, process by process, the floor `f` given on whole panels -/
structure HoldsFloor (g : Atm) (f' f : Floor) : Prop where
  z : ∀ r < 6 * (g.k * g.k), ∀ ej < g.N, ∀ ei < g.N, ∀ c < g.n * g.n,
    f'.z r ej ei c = f.z (panelOf g.toGrid r) (rowOf g.toGrid r ej) (colOf g.toGrid r ei) c
  itfI : ∀ r < 6 * (g.k * g.k), ∀ ej < g.N, ∀ e ≤ g.N, ∀ l < g.n,
    f'.itfI r ej e l = f.itfI (panelOf g.toGrid r) (rowOf g.toGrid r ej) (colOf g.toGrid r e) l
  itfJ : ∀ r < 6 * (g.k * g.k), ∀ ei < g.N, ∀ e ≤ g.N, ∀ l < g.n,
    f'.itfJ r e ei l = f.itfJ (panelOf g.toGrid r) (rowOf g.toGrid r e) (colOf g.toGrid r ei) l

/-- `F'` holds, process by process, the Christoffel symbols, the reference wind and the damping rate `F` given on whole panels -/
structure HoldsForcing (g : Atm) (F' F : ForcingData) : Prop where
  Γ : ∀ a < 3, ∀ b < 9, ∀ r < 6 * (g.k * g.k), ∀ ek < g.nz, ∀ ej < g.N, ∀ ei < g.N, ∀ c < g.n * g.n * g.n,
    F'.Γ a b r ek ej ei c = F.Γ a b (panelOf g.toGrid r) ek (rowOf g.toGrid r ej) (colOf g.toGrid r ei) c
  uref : ∀ d < 3, ∀ r < 6 * (g.k * g.k), ∀ ek < g.nz, ∀ ej < g.N, ∀ ei < g.N, ∀ c < g.n * g.n * g.n,
    F'.uref d r ek ej ei c = F.uref d (panelOf g.toGrid r) ek (rowOf g.toGrid r ej) (colOf g.toGrid r ei) c
  rate : ∀ r < 6 * (g.k * g.k), ∀ ek < g.nz, ∀ ej < g.N, ∀ ei < g.N, ∀ c < g.n * g.n * g.n,
    F'.rate r ek ej ei c = F.rate (panelOf g.toGrid r) ek (rowOf g.toGrid r ej) (colOf g.toGrid r ei) c

end WxVerif.Spec.Decomposition
