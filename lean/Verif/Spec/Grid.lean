import Verif.Model.GridIndex
/-
Specification vocabulary for grids: admissible sizes and the value of a field at a grid point.
-/
namespace SFK
namespace Dims

/-- Admissible sizes: no empty direction and the number of grid points (and of (R,l) pairs) fits in `size_t`.
Every grid that can be allocated satisfies the second and third condition. -/
structure Ok (d : Dims) : Prop where
  nx_pos : 0 < d.nx
  nlat_pos : 0 < d.nlat
  nphi_pos : 0 < d.nphi
  fits : d.nx * d.nlat * d.nphi < W
  fitsl : d.nx * d.nl < W

/-- number of grid points -/
def total (d : Dims) : Nat := d.nx * d.nlat * d.nphi

/-- `(ix,it,ip)` is a point of the grid. -/
def InR (d : Dims) (ix it ip : Nat) : Prop := ix < d.nx ∧ it < d.nlat ∧ ip < d.nphi

variable {α : Type} [Inhabited α]

/-- Value of the field stored in `v` at the point `(ix,it,ip)`. -/
def at3 (d : Dims) (v : List α) (ix it ip : Nat) : α := gv v (d.indx_R_th_ph ix it ip)

/-- Value of the shell array `s` at the angular point `(it,ip)`. -/
def at2 (d : Dims) (s : List α) (it ip : Nat) : α := gv s (d.indx_th_ph it ip)

end Dims
end SFK
