import Verif.Model.Sphere
import Verif.Model.Cheb
import Verif.Model.FD
/-
Model of the unit tests in /repo/Test/test_sphere.cpp, test_cheb.cpp and test_finite_diff.cpp.  A test is a program that ends with a verdict: `true` if no `EXPECT_LT` in it failed (a failed
`EXPECT_LT` is recorded and the test goes on).  As for any other program, `.error` means that it crashed.

`sht` is what `shtns_create`/`shtns_set_grid` returned for the sizes of the test and `nspatAlloc` the return value of the latter; `contig` and
`ndebug` are the switches `SHTNS_CONTIGUOUS_LONGITUDES` and `NDEBUG` (Test/Makefile:14-17 sets the first, not the second).
Where a test fills several vectors in the same loop nest, each has its own loop nest here.
-/
namespace SFK
open Scalar

namespace Tests
variable {α : Type} [Scalar α]

/-- sphere.hpp:102-109 `Sphere::indx`. -/
def indx (contig : Bool) (s : Sphere α) (it ip : Nat) : Nat :=
  if contig then uadd (umul s.nlat ip) it else uadd (umul s.nphi it) ip

/-- `for (ip<nphi()) for (it<nlat()) v[indx(it,ip)] = F(theta(it),phi(ip));`, e.g. test_sphere.cpp:75-87, 130-142. -/
def fill {β : Type} (contig : Bool) (s : Sphere α) (F : α → α → β) (v : List β) : Exec (List β) :=
  forRange 0 s.nphi v fun ip v => forRange 0 s.nlat v fun it v => do
    let th ← s.theta it
    wr v (indx contig s it ip) (F th (s.phi ip))

/-- `for (ip<nphi()) for (it<nlat()) EXPECT_LT(...)`, e.g. test_sphere.cpp:148-155; `ok` is the verdict so far. -/
def expectAll (s : Sphere α) (p : Nat → Nat → Exec Bool) (ok : Bool) : Exec Bool :=
  forRange 0 s.nphi ok fun ip ok => forRange 0 s.nlat ok fun it ok => do
    let b ← p it ip
    .ok (ok && b)

/-- `EXPECT_LT(fabs(a[indx(it,ip)]-b[indx(it,ip)]), eps)` (test_sphere.cpp:98-101, 150-153, 257-260, 302-305). -/
def near (contig : Bool) (s : Sphere α) (eps : α) (a b : List α) (it ip : Nat) : Exec Bool := do
  let x ← rd a (indx contig s it ip)
  let y ← rd b (indx contig s it ip)
  .ok (lt (fabs (x - y)) eps)

/-- The same for complex numbers: `0.5*fabs(real)+0.5*fabs(imag)` (test_sphere.cpp:106-110, 209-213). -/
def nearC (contig : Bool) (s : Sphere α) (eps : α) (a b : List (Cx α)) (it ip : Nat) : Exec Bool := do
  let x ← rd a (indx contig s it ip)
  let y ← rd b (indx contig s it ip)
  .ok (lt (lit (1 / 2) * fabs (x.re - y.re) + lit (1 / 2) * fabs (x.im - y.im)) eps)

/-- `1.0 + pow(sin(theta),2)*pow(cos(phi),2)` (test_sphere.cpp:77-80, 132-135, 238-241, 282-285). -/
def bumpF (th ph : α) : α := 1 + pown (sin th) 2 * pown (cos ph) 2

/-- test_sphere.cpp:18-53 `make_Ylm`.  The three expectations per point are made in the order of the program. -/
def make_Ylm (sht : Shtns α) (nspatAlloc : Nat) (contig ndebug : Bool) (J : Junk (Cx α)) : Exec Bool := do
  let s ← Sphere.mk' 32 16 34 96 nspatAlloc sht ndebug
  let y00 ← s.compute_ylm (J.sub 0) 0 0
  let y10 ← s.compute_ylm (J.sub 1) 1 0
  let y11 ← s.compute_ylm (J.sub 2) 1 1
  expectAll s (fun it ip => do
    let th ← s.theta it
    let ph := s.phi ip
    let a ← rd y00 (indx contig s it ip)
    let b ← rd y10 (indx contig s it ip)
    let c ← rd y11 (indx contig s it ip)
    .ok (lt (fabs (rt (1 / (4 * pi)) - a)) (tenth 15)
      && lt (fabs (rt (3 / (4 * pi)) * cos th - b)) (tenth 15)
      && lt (fabs (-(rt (3 / (2 * pi))) * sin th * cos ph - c)) (tenth 15))) true

/-- test_sphere.cpp:59-113 `to_and_from`. -/
def to_and_from (sht : Shtns α) (nspatAlloc : Nat) (contig ndebug : Bool) (J : Junk (Cx α)) : Exec Bool := do
  let s ← Sphere.mk' 32 16 34 96 nspatAlloc sht ndebug
  let r1 ← fill contig s bumpF (List.replicate s.nSph 0)
  let c1 ← fill contig s (fun th ph => Cx.ofRe (bumpF th ph)) (List.replicate s.nSph ⟨0, 0⟩)
  let rylm ← s.to_Ylm (J.sub 0) r1 (List.replicate s.nYlm ⟨0, 0⟩)
  let r2 ← s.to_Sph (J.sub 1) rylm (List.replicate s.nSph 0)
  let cylm ← s.to_YlmC (J.sub 2) c1 (List.replicate ((32 + 1) ^ 2) ⟨0, 0⟩)
  let c2 ← s.to_SphC (J.sub 3) cylm (List.replicate s.nSph ⟨0, 0⟩)
  let ok ← expectAll s (near contig s (tenth 14) r1 r2) true
  expectAll s (nearC contig s (tenth 14) c1 c2) ok

/-- test_sphere.cpp:117-156 `partial_phi`, with the function tested (called in line 146) as a parameter. -/
def partial_phi_with (op : Sphere α → Junk (Cx α) → List α → List α → Exec (List α)) (sht : Shtns α) (nspatAlloc : Nat) (contig ndebug : Bool)
    (J : Junk (Cx α)) : Exec Bool := do
  let s ← Sphere.mk' 32 16 34 96 nspatAlloc sht ndebug
  let v ← fill contig s bumpF (List.replicate s.nSph 0)
  let dv2 ← fill contig s (fun th ph => pown (sin th) 2 * (-2 * sin ph * cos ph)) (List.replicate s.nSph 0)
  let dv1 ← op s J v (List.replicate s.nSph 0)
  expectAll s (near contig s (lit (5 / 10 ^ 14)) dv1 dv2) true

/-- test_sphere.cpp:117-156 `partial_phi`. -/
def partial_phi (sht : Shtns α) (nspatAlloc : Nat) (contig ndebug : Bool) (J : Junk (Cx α)) : Exec Bool :=
  partial_phi_with Sphere.partial_phi sht nspatAlloc contig ndebug J

/-- `cos(phi) + cplx(0,1)*sin(phi)` (test_sphere.cpp:185-186). -/
def eip (ph : α) : Cx α := ⟨cos ph + 0 * sin ph, 1 * sin ph⟩

/-- `cos(phi) - cplx(0,1)*sin(phi)` (test_sphere.cpp:194-195). -/
def eim (ph : α) : Cx α := ⟨cos ph - 0 * sin ph, -(1 * sin ph)⟩

/-- test_sphere.cpp:160-216 `raise_and_lower`, with the functions called as `sphere.raise(v,r1)` and `sphere.lower(v,l1)` in lines 204-205 as
parameters.  `l1` and `l2` are computed and never looked at. -/
def raise_and_lower_with (up low : Sphere α → Junk (Cx α) → List α → List (Cx α) → Exec (List (Cx α))) (sht : Shtns α) (nspatAlloc : Nat)
    (contig ndebug : Bool) (J : Junk (Cx α)) : Exec Bool := do
  let s ← Sphere.mk' 20 14 40 32 nspatAlloc sht ndebug
  let v ← fill contig s (fun th _ => lit (1 / 2) * rt (3 / pi) * cos th) (List.replicate s.nSph 0)
  let r2 ← fill contig s (fun th ph => Cx.smul' (rt 2) (Cx.smul' (-(lit (1 / 2)) * rt (3 / (2 * pi)) * sin th) (eip ph)))
    (List.replicate s.nSph ⟨0, 0⟩)
  let _l2 ← fill contig s (fun th ph => Cx.smul' (rt 2) (Cx.smul' (lit (1 / 2) * rt (3 / (2 * pi)) * sin th) (eim ph)))
    (List.replicate s.nSph ⟨0, 0⟩)
  let r1 ← up s (J.sub 0) v (List.replicate s.nSph ⟨0, 0⟩)
  let _l1 ← low s (J.sub 1) v (List.replicate s.nSph ⟨0, 0⟩)
  expectAll s (nearC contig s (lit (5 / 10 ^ 12)) r1 r2) true

/-- test_sphere.cpp:160-216 `raise_and_lower`. -/
def raise_and_lower (sht : Shtns α) (nspatAlloc : Nat) (contig ndebug : Bool) (J : Junk (Cx α)) : Exec Bool :=
  raise_and_lower_with Sphere.raise Sphere.lower sht nspatAlloc contig ndebug J

/-- test_sphere.cpp:220-263 `sphereX`. -/
def sphereX (sht : Shtns α) (nspatAlloc : Nat) (contig ndebug : Bool) (J : Junk (Cx α)) : Exec Bool := do
  let s ← Sphere.mk' 24 12 48 28 nspatAlloc sht ndebug
  let v ← fill contig s bumpF (List.replicate s.nSph 0)
  let vX2 ← fill contig s (fun th ph => 4 * pown (sin th * cos ph) 2 * (pown (cos th * cos ph) 2 + pown (sin ph) 2))
    (List.replicate s.nSph 0)
  let vX1 ← s.sphereX J v (List.replicate s.nSph 0)
  expectAll s (near contig s (lit (5 / 10 ^ 12)) vX1 vX2) true

/-- test_sphere.cpp:267-308 `laplace_beltrami`, with the function tested (called in line 298) as a parameter. -/
def laplace_beltrami_with (op : Sphere α → Junk (Cx α) → List α → List α → Exec (List α)) (sht : Shtns α) (nspatAlloc : Nat) (contig ndebug : Bool)
    (J : Junk (Cx α)) : Exec Bool := do
  let s ← Sphere.mk' 32 24 34 60 nspatAlloc sht ndebug
  let v ← fill contig s bumpF (List.replicate s.nSph 0)
  let ddv2 ← fill contig s (fun th ph => lit (1 / 2) * (1 + 3 * cos (2 * th) - 6 * cos (2 * ph) * pown (sin th) 2))
    (List.replicate s.nSph 0)
  let ddv1 ← op s J v (List.replicate s.nSph 0)
  expectAll s (near contig s (lit (5 / 10 ^ 12)) ddv1 ddv2) true

/-- test_sphere.cpp:267-308 `laplace_beltrami`. -/
def laplace_beltrami (sht : Shtns α) (nspatAlloc : Nat) (contig ndebug : Bool) (J : Junk (Cx α)) : Exec Bool :=
  laplace_beltrami_with Sphere.laplace_beltrami sht nspatAlloc contig ndebug J

/-- `for (i<nr) EXPECT_LT(fabs(a[i]-b[i]), eps)` (test_cheb.cpp:34-36, 58-60). -/
def expectLine (n : Nat) (eps : α) (a b : List α) : Exec Bool :=
  forRange 0 n true fun i ok => do
    let x ← rd a i
    let y ← rd b i
    .ok (ok && lt (fabs (x - y)) eps)

/-- `for (i<nr) v[i] = F(i,cheb.pt(i))` (test_cheb.cpp:27-29, 52-55). -/
def fillCheb (c : Cheb α) (n : Nat) (F : Nat → α → α) (v : List α) : Exec (List α) :=
  forRange 0 n v fun i v => do
    let x ← c.pt i
    wr v i (F i x)

/-- test_cheb.cpp:15-37 `to_and_from`; `tan` is the library function. -/
def cheb_to_and_from (dct : List α → List α) (planOk ndebug : Bool) (tan : α → α) : Exec Bool := do
  let c ← Cheb.mk' 32 (0 : α) 1 dct planOk ndebug
  let po1 ← fillCheb c 32 (fun _ x => tan x) (List.replicate 32 0)
  let ch ← c.to_ch po1 (List.replicate 32 0)
  let (_, po2) ← c.to_po ch (List.replicate 32 0)
  expectLine 32 (tenth 14) po1 po2

/-- test_cheb.cpp:41-61 `derivatives`, with the function tested as a parameter. -/
def cheb_derivatives_with (op : Cheb α → List α → List α → Exec (List α)) (dct : List α → List α) (planOk ndebug : Bool) : Exec Bool := do
  let c ← Cheb.mk' 32 (0 : α) 1 dct planOk ndebug
  let v ← fillCheb c 32 (fun _ x => x * sin x) (List.replicate 32 0)
  let dv1 ← fillCheb c 32 (fun _ x => x * cos x + sin x) (List.replicate 32 0)
  let dv2 ← op c v (List.replicate 32 0)
  expectLine 32 (lit (5 / 10 ^ 14)) dv1 dv2

/-- test_cheb.cpp:41-61 `derivatives`. -/
def cheb_derivatives (dct : List α → List α) (planOk ndebug : Bool) : Exec Bool := cheb_derivatives_with Cheb.der dct planOk ndebug

/-- `for (i<nr-1) tv += fabs(po[i+1]-po[i])` (test_finite_diff.cpp:77-80). -/
def tvLoop (n : Nat) (po : List α) : Exec α :=
  forRange 0 (usub n 1) 0 fun i tv => do
    let x ← rd po (i + 1)
    let y ← rd po i
    .ok (tv + fabs (x - y))

/-- test_finite_diff.cpp:58-82 `filter_is_TVD`; `noise i` is the value of `0.1*rand()/RAND_MAX` in iteration `i`. -/
def fd_filter_is_TVD (ndebug : Bool) (tan : α → α) (noise : Nat → α) : Exec Bool := do
  let fd := FD.mk' 128 (0 : α) 1 ndebug
  let po1 ← forRange 0 128 (List.replicate 128 (0 : α)) fun i v => wr v i (tan (fd.pt i) * (1 + noise i))
  let po2 ← fd.filter po1
  let tv1 ← tvLoop 128 po1
  let tv2 ← tvLoop 128 po2
  .ok (lt tv2 tv1)

/-- test_cheb.cpp:66-90 `filter_is_TVD`; `noise i` as above. -/
def cheb_filter_is_TVD (dct : List α → List α) (planOk ndebug : Bool) (tan : α → α) (noise : Nat → α) : Exec Bool := do
  let c ← Cheb.mk' 32 (0 : α) 1 dct planOk ndebug
  let po1 ← fillCheb c 32 (fun i x => tan x * (1 + noise i)) (List.replicate 32 0)
  let po2 ← c.filter po1
  let tv1 ← tvLoop 32 po1
  let tv2 ← tvLoop 32 po2
  .ok (lt tv2 tv1)

/-- `for (i<n) v[i] = F(fd.pt(i))` (test_finite_diff.cpp:25-29). -/
def fillFD (fd : FD α) (n : Nat) (F : α → α) (v : List α) : Exec (List α) :=
  forRange 0 n v fun i v => wr v i (F (fd.pt i))

/-- `double norm = 0; for (i<n) norm += fabs(a[i]-b[i]); norm /= n;` (test_finite_diff.cpp:33-40; the program has one loop for the two norms). -/
def meanAbs (n : Nat) (a b : List α) : Exec α := do
  let s ← forRange 0 n (0 : α) fun i s => do
    let x ← rd a i
    let y ← rd b i
    .ok (s + fabs (x - y))
  .ok (s / dbl n)

/-- test_finite_diff.cpp:14-43 `norm_derivatives`, with the two functions tested (called in lines 30-31) as parameters; the result is the vector of
two numbers. -/
def norm_derivatives_with (d1 d2 : FD α → List α → List α → Exec (List α)) (ndebug : Bool) (n : Nat) : Exec (α × α) := do
  let fd := FD.mk' n (0 : α) 1 ndebug
  let v ← fillFD fd n (fun x => x * sin x) (List.replicate n 0)
  let dv1 ← fillFD fd n (fun x => x * cos x + sin x) (List.replicate n 0)
  let ddv1 ← fillFD fd n (fun x => -x * sin x + 2 * cos x) (List.replicate n 0)
  let dv2 ← d1 fd v (List.replicate n 0)
  let ddv2 ← d2 fd v (List.replicate n 0)
  let e1 ← meanAbs n dv1 dv2
  let e2 ← meanAbs n ddv1 ddv2
  .ok (e1, e2)

/-- test_finite_diff.cpp:47-53 `derivatives`, with the two functions tested as parameters. -/
def fd_derivatives_with (d1 d2 : FD α → List α → List α → Exec (List α)) (ndebug : Bool) : Exec Bool := do
  let a ← norm_derivatives_with d1 d2 ndebug 33
  let b ← norm_derivatives_with d1 d2 ndebug 65
  .ok (lt b.1 (1 / 64 * a.1) && lt b.2 (1 / 64 * a.2))

/-- test_finite_diff.cpp:47-53 `derivatives`. -/
def fd_derivatives (α : Type) [Scalar α] (ndebug : Bool) : Exec Bool := fd_derivatives_with (α := α) FD.der FD.der2 ndebug

/-- `fabs(po[indx(it,ip)]-po[indx(it,ip+1)]) + fabs(po[indx(it,ip)]-po[indx(it+1,ip)])` (test_sphere.cpp:347-351, 353-357). -/
def tvCell (contig : Bool) (s : Sphere α) (po : List α) (it ip : Nat) : Exec α := do
  let a ← rd po (indx contig s it ip)
  let b ← rd po (indx contig s it (ip + 1))
  let c ← rd po (indx contig s (it + 1) ip)
  .ok (fabs (a - b) + fabs (a - c))

/-- `for (ip<nphi()-1) for (it<nlat()-1) tv += ...` (test_sphere.cpp:343-360). -/
def tvLoop2 (contig : Bool) (s : Sphere α) (po : List α) : Exec α :=
  forRange 0 (usub s.nphi 1) (0 : α) fun ip tv => forRange 0 (usub s.nlat 1) tv fun it tv => do
    let d ← tvCell contig s po it ip
    .ok (tv + d)

/-- test_sphere.cpp:313-362 `filter_is_TVD`, with the function tested (called in line 337) as a parameter; `noise k` is the value of `0.1*rand()/RAND_MAX` when
entry `k` of the vector is filled.  The vector `ylm` of line 322 is never used. -/
def sphere_filter_is_TVD_with (op : Sphere α → Junk (Cx α) → List α → Exec (List α)) (sht : Shtns α) (nspatAlloc : Nat) (contig ndebug : Bool) (J : Junk (Cx α))
    (noise : Nat → α) : Exec Bool := do
  let s ← Sphere.mk' 32 16 34 96 nspatAlloc sht ndebug
  let po1 ← forRange 0 s.nphi (List.replicate s.nSph 0) fun ip v => forRange 0 s.nlat v fun it v => do
    let th ← s.theta it
    wr v (indx contig s it ip) (pown (sin th) 2 * pown (cos (s.phi ip)) 2 * (1 + noise (indx contig s it ip)))
  let po2 ← op s J po1
  let tv1 ← tvLoop2 contig s po1
  let tv2 ← tvLoop2 contig s po2
  .ok (lt tv2 tv1)

/-- test_sphere.cpp:313-362 `filter_is_TVD`. -/
def sphere_filter_is_TVD (sht : Shtns α) (nspatAlloc : Nat) (contig ndebug : Bool) (J : Junk (Cx α)) (noise : Nat → α) : Exec Bool :=
  sphere_filter_is_TVD_with Sphere.filter sht nspatAlloc contig ndebug J noise

end Tests
end SFK
