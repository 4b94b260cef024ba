import Verif.Spec.JoinedShell
import Verif.Lemmas.WeakCoupling
import Verif.Lemmas.HyperShell
import Verif.Props.WeakForms
import Verif.Props.WeakCoupling
import Verif.Props.ShellSystem

/-! # Helper lemmas: patches joined by penalties -/

namespace Verif.JoinedShell

open V3 Verif.Geometry Verif.Variation Verif.WeakForms Spec.JoinedShell
open Verif.ShellSystem (Problem Law deformed VSmooth SSmooth deformed_smooth deformed_shift deformed_zero
  coord_smooth fderiv_of_lines)
open Filter Topology

/-! ## Smoothness of a side -/

section Smooth

variable {V : Type} [NormedAddCommGroup V] [NormedSpace ℝ V] {s : V → Surf} {x : V}

theorem measure_smooth (hs : SSmooth s x) (h : Indep ((s x).a 0) ((s x).a 1)) :
    ContDiffAt ℝ 2 (fun y => 1 / Variation.measure (s y)) x :=
  ((hs.a 0).cross (hs.a 1)).inv_norm h.cross_ne

theorem var2_smooth (hs : SSmooth s x) (h : Indep ((s x).a 0) ((s x).a 1)) (u v : Surf) :
    VSmooth (fun y => var2 (s y) u v) x := by
  have hn := hs.normal h
  have hu := hs.mvec h u
  have hv := hs.mvec h v
  have hd := hs.var1 h v
  have hm : VSmooth (fun y => muv (s y) u v) x := VSmooth.smul (measure_smooth hs h) (VSmooth.const _)
  have hder := hm.sub (VSmooth.smul (hn.dot hv) hu)
  exact (hder.sub (VSmooth.smul ((hu.dot hd).add (hn.dot hder)) hn)).sub (VSmooth.smul (hn.dot hu) hd)

theorem tan_smooth (hs : SSmooth s x) (c : Fin 2) (σ : ℝ) : VSmooth (fun y => σ • (s y).a c) x :=
  VSmooth.smul contDiffAt_const (hs.a c)

theorem tvarC_smooth (hs : SSmooth s x) (h : Indep ((s x).a 0) ((s x).a 1)) (c : Fin 2) {σ : ℝ}
    (hσ : σ = 1 ∨ σ = -1) (u : Surf) : VSmooth (fun y => tvarC (s y) c σ u) x := by
  have hne := smul_ne _ (Indep.ne _ h c) σ hσ
  have ht := tan_smooth hs c σ
  have hu := ht.normalized hne
  exact VSmooth.smul (ht.inv_norm hne) ((VSmooth.const (σ • u.a c)).sub (VSmooth.smul (hu.dot (VSmooth.const _)) hu))

theorem outer_smooth (hs : SSmooth s x) (h : Indep ((s x).a 0) ((s x).a 1)) (c : Fin 2) {σ : ℝ}
    (hσ : σ = 1 ∨ σ = -1) : VSmooth (fun y => (sideOf (s y) (σ • (s y).a c)).o) x :=
  ((tan_smooth hs c σ).normalized (smul_ne _ (Indep.ne _ h c) σ hσ)).cross (hs.normal h)

theorem ovarC_smooth (hs : SSmooth s x) (h : Indep ((s x).a 0) ((s x).a 1)) (c : Fin 2) {σ : ℝ}
    (hσ : σ = 1 ∨ σ = -1) (u : Surf) : VSmooth (fun y => ovarC (s y) c σ u) x :=
  ((tvarC_smooth hs h c hσ u).cross (hs.normal h)).add
    (((tan_smooth hs c σ).normalized (smul_ne _ (Indep.ne _ h c) σ hσ)).cross (hs.var1 h u))

theorem unitCols_indep {s : Surf} (h : Indep (s.a 0) (s.a 1)) : Indep ((unitCols s).a 0) ((unitCols s).a 1) := by
  refine indep_of_cross fun h0 => h.cross_ne ?_
  have h1 := (norm_pos (Indep.ne s h 0)).ne'
  have h2 := (norm_pos (Indep.ne s h 1)).ne'
  have e : cross ((unitCols s).a 0) ((unitCols s).a 1)
      = (1 / V3.norm (s.a 0) * (1 / V3.norm (s.a 1))) • cross (s.a 0) (s.a 1) := by
    show cross (normalized (s.a 0)) (normalized (s.a 1)) = _
    unfold normalized
    generalize V3.norm (s.a 0) = p
    generalize V3.norm (s.a 1) = q
    ext <;> simp [cross] <;> ring
  rw [e] at h0
  have hc : 1 / V3.norm (s.a 0) * (1 / V3.norm (s.a 1)) ≠ 0 := by positivity
  have hx := congrArg V3.x h0; have hy := congrArg V3.y h0; have hz := congrArg V3.z h0
  simp only [smul_x, smul_y, smul_z, zero_x, zero_y, zero_z] at hx hy hz
  ext
  · exact (mul_eq_zero.1 hx).resolve_left hc
  · exact (mul_eq_zero.1 hy).resolve_left hc
  · exact (mul_eq_zero.1 hz).resolve_left hc

theorem unitCols_smooth (hs : SSmooth s x) (h : Indep ((s x).a 0) ((s x).a 1)) :
    SSmooth (fun y => unitCols (s y)) x :=
  ⟨fun i => (hs.a i).normalized (Indep.ne _ h i), hs.d11, hs.d22, hs.d12⟩

/-- The coded second variation of the outer normal, with the column and the sign known. -/
noncomputable def ovar2S (s : Surf) (c : Fin 2) (σ : ℝ) (u v : Surf) : V3 :=
  let J := unitCols s
  let n := normal s
  let ut := normalized (σ • s.a c)
  let snvaru := mvec J u - dot n (mvec J u) • n
  let snvarv := mvec J v - dot n (mvec J v) • n
  let muDer := muv J u v - dot n (mvec J v) • mvec J u
  let snvar2 := muDer - (dot (mvec J u) snvarv + dot n muDer) • n - dot n (mvec J u) • snvarv
  cross (tvar2C s c σ u v) n + cross (tvarC s c σ u) snvarv + cross (tvarC s c σ v) snvaru + cross ut snvar2

theorem ovar2_code (s : Surf) (h : Indep (s.a 0) (s.a 1)) (c : Fin 2) {σ : ℝ} (hσ : σ = 1 ∨ σ = -1) (u v : Surf) :
    (sideOf s (σ • s.a c)).o2 u v = ovar2S s c σ u v := by
  show ovar2 s (cross (normalized (σ • s.a c)) (normal s)) (σ • s.a c) u v = _
  unfold ovar2
  rw [colIndex_eq s h c _ (sideOf_crosses s h c σ hσ)]
  simp only
  rw [show sgn (dot (σ • s.a c) ((unitCols s).a c)) = σ from sgn_eq _ (Indep.ne s h c) σ hσ]
  rfl

theorem ovar2S_smooth (hs : SSmooth s x) (h : Indep ((s x).a 0) ((s x).a 1)) (c : Fin 2) {σ : ℝ}
    (hσ : σ = 1 ∨ σ = -1) (u v : Surf) : VSmooth (fun y => ovar2S (s y) c σ u v) x := by
  have hne := smul_ne _ (Indep.ne _ h c) σ hσ
  have hJ := unitCols_smooth hs h
  have hI := unitCols_indep h
  have hn := hs.normal h
  have ht := tan_smooth hs c σ
  have hut := ht.normalized hne
  have hu := hJ.mvec hI u
  have hv := hJ.mvec hI v
  have htu := tvarC_smooth hs h c hσ u
  have htv := tvarC_smooth hs h c hσ v
  have hsu := hu.sub (VSmooth.smul (hn.dot hu) hn)
  have hsv := hv.sub (VSmooth.smul (hn.dot hv) hn)
  have hm : VSmooth (fun y => muv (unitCols (s y)) u v) x := VSmooth.smul (measure_smooth hJ hI) (VSmooth.const _)
  have hder := hm.sub (VSmooth.smul (hn.dot hv) hu)
  have h2 := (hder.sub (VSmooth.smul ((hu.dot hsv).add (hn.dot hder)) hn)).sub (VSmooth.smul (hn.dot hu) hsv)
  have hN : ContDiffAt ℝ 2 (fun y => -1 / V3.norm (σ • (s y).a c)) x :=
    contDiffAt_const.div (ht.norm hne) (norm_pos hne).ne'
  have ht2 : VSmooth (fun y => tvar2C (s y) c σ u v) x :=
    VSmooth.smul hN (((VSmooth.smul (htv.dot (VSmooth.const (σ • u.a c))) hut).add
      (VSmooth.smul (hut.dot (VSmooth.const (σ • v.a c))) htu)).add
      (VSmooth.smul (hut.dot (VSmooth.const (σ • u.a c))) htv))
  exact (((ht2.cross hn).add (htu.cross hsv)).add (htv.cross hsu)).add (hut.cross h2)

theorem VSmooth.congr {f g : V → V3} (hf : VSmooth f x) (h : ∀ᶠ y in 𝓝 x, g y = f y) : VSmooth g x :=
  ⟨hf.1.congr_of_eventuallyEq (h.mono fun _ e => congrArg V3.x e),
    hf.2.1.congr_of_eventuallyEq (h.mono fun _ e => congrArg V3.y e),
    hf.2.2.congr_of_eventuallyEq (h.mono fun _ e => congrArg V3.z e)⟩

theorem indep_near (hs : SSmooth s x) (h : Indep ((s x).a 0) ((s x).a 1)) :
    ∀ᶠ y in 𝓝 x, Indep ((s y).a 0) ((s y).a 1) := by
  have hc := (hs.a 0).cross (hs.a 1)
  refine ((hc.dot hc).continuousAt.eventually_ne (dot_self_pos h.cross_ne).ne').mono fun y hy =>
    indep_of_cross fun h0 => hy ?_
  rw [h0]; simp [V3.dot]

/-- All ingredients of a side depend smoothly on the state. -/
structure Smooth (S : V → Side Surf) (x : V) : Prop where
  n : VSmooth (fun y => (S y).n) x
  o : VSmooth (fun y => (S y).o) x
  n1 : ∀ v, VSmooth (fun y => (S y).n1 v) x
  o1 : ∀ v, VSmooth (fun y => (S y).o1 v) x
  n2 : ∀ v w, VSmooth (fun y => (S y).n2 v w) x
  o2 : ∀ v w, VSmooth (fun y => (S y).o2 v w) x

theorem side_smooth (hs : SSmooth s x) (h : Indep ((s x).a 0) ((s x).a 1)) (c : Fin 2) {σ : ℝ}
    (hσ : σ = 1 ∨ σ = -1) : Smooth (fun y => sideOf (s y) (σ • (s y).a c)) x where
  n := hs.normal h
  o := outer_smooth hs h c hσ
  n1 v := hs.var1 h v
  o1 v := VSmooth.congr (ovarC_smooth hs h c hσ v) ((indep_near hs h).mono fun y hy => sideOf_o1 (s y) hy c σ hσ v)
  n2 v w := var2_smooth hs h v w
  o2 v w := VSmooth.congr (ovar2S_smooth hs h c hσ v w) ((indep_near hs h).mono fun y hy => ovar2_code (s y) hy c hσ v w)

variable {L R : V → Side Surf}

theorem c1VecOut_smooth (hL : Smooth L x) (hR : Smooth R x) (α μ nn0 : ℝ) (vL vR : Surf) :
    ContDiffAt ℝ 2 (fun y => c1VecOut α μ (L y) (R y) nn0 vL vR) x := by
  have h1 := (hL.n.dot hR.n).sub (contDiffAt_const (c := nn0))
  have h2 := (hR.n.dot hL.n).sub (contDiffAt_const (c := nn0))
  have h3 := (hL.n1 vL).dot hR.n
  have h4 := (hR.n1 vR).dot hL.n
  have hm := contDiffAt_const (𝕜 := ℝ) (n := 2) (c := μ) (x := x)
  have ha := contDiffAt_const (𝕜 := ℝ) (n := 2) (c := -α) (x := x)
  exact (((((ha.mul h1).mul h3).mul hm).add (((ha.mul h1).mul h4).mul hm)).add (((ha.mul h2).mul h4).mul hm)).add
    (((ha.mul h2).mul h3).mul hm)

theorem c1VecIn_smooth (hL : Smooth L x) (hR : Smooth R x) (α μ lr0 rl0 : ℝ) (vL vR : Surf) :
    ContDiffAt ℝ 2 (fun y => c1VecIn α μ (L y) (R y) lr0 rl0 vL vR) x := by
  have h1 := (hL.o.dot hR.n).sub (contDiffAt_const (c := lr0))
  have h2 := (hR.o.dot hL.n).sub (contDiffAt_const (c := rl0))
  have hm := contDiffAt_const (𝕜 := ℝ) (n := 2) (c := μ) (x := x)
  have ha := contDiffAt_const (𝕜 := ℝ) (n := 2) (c := -α) (x := x)
  exact (((((ha.mul h1).mul ((hL.o1 vL).dot hR.n)).mul hm).add (((ha.mul h1).mul ((hR.n1 vR).dot hL.o)).mul hm)).add
    (((ha.mul h2).mul ((hR.o1 vR).dot hL.n)).mul hm)).add (((ha.mul h2).mul ((hL.n1 vL).dot hR.o)).mul hm)

theorem c1MatOut1_smooth (hL : Smooth L x) (hR : Smooth R x) (α μ nn0 : ℝ) (vL vR wL wR : Surf) :
    ContDiffAt ℝ 2 (fun y => c1MatOut1 α μ (L y) (R y) nn0 vL vR wL wR) x := by
  have h1 := (hL.n.dot hR.n).sub (contDiffAt_const (c := nn0))
  have h2 := (hR.n.dot hL.n).sub (contDiffAt_const (c := nn0))
  have hm := contDiffAt_const (𝕜 := ℝ) (n := 2) (c := μ) (x := x)
  have ha := contDiffAt_const (𝕜 := ℝ) (n := 2) (c := α) (x := x)
  have k : ∀ {f : V → ℝ}, ContDiffAt ℝ 2 f x → ContDiffAt ℝ 2 (fun y => α * dN (L y) (R y) nn0 * f y * μ
      + α * dN (R y) (L y) nn0 * f y * μ) x := fun hf =>
    (((ha.mul h1).mul hf).mul hm).add (((ha.mul h2).mul hf).mul hm)
  exact (((k ((hL.n2 vL wL).dot hR.n)).add (k ((hL.n1 vL).dot (hR.n1 wR)))).add (k ((hR.n1 vR).dot (hL.n1 wL)))).add
    (k ((hR.n2 vR wR).dot hL.n))

theorem c1MatIn1_smooth (hL : Smooth L x) (hR : Smooth R x) (α μ lr0 rl0 : ℝ) (vL vR wL wR : Surf) :
    ContDiffAt ℝ 2 (fun y => c1MatIn1 α μ (L y) (R y) lr0 rl0 vL vR wL wR) x := by
  have h1 := (hL.o.dot hR.n).sub (contDiffAt_const (c := lr0))
  have h2 := (hR.o.dot hL.n).sub (contDiffAt_const (c := rl0))
  have hm := contDiffAt_const (𝕜 := ℝ) (n := 2) (c := μ) (x := x)
  have ha := contDiffAt_const (𝕜 := ℝ) (n := 2) (c := α) (x := x)
  have k : ∀ {f : V → ℝ}, ContDiffAt ℝ 2 f x → ContDiffAt ℝ 2 (fun y => α * dnN (L y) (R y) lr0 * f y * μ
      + α * dnN (R y) (L y) rl0 * f y * μ) x := fun hf =>
    (((ha.mul h1).mul hf).mul hm).add (((ha.mul h2).mul hf).mul hm)
  exact (((k ((hL.o2 vL wL).dot hR.n)).add (k ((hL.o1 vL).dot (hR.n1 wR)))).add (k ((hR.o1 vR).dot (hL.n1 wL)))).add
    (k ((hR.o2 vR wR).dot hL.n))

theorem prod_smooth (α μ : ℝ) {f g : V → ℝ} (hf : ContDiffAt ℝ 2 f x) (hg : ContDiffAt ℝ 2 g x) :
    ContDiffAt ℝ 2 (fun y => α * f y * g y * μ) x :=
  ((contDiffAt_const.mul hf).mul hg).mul contDiffAt_const

theorem c1MatOut2_smooth (hL : Smooth L x) (hR : Smooth R x) (α μ : ℝ) (vL vR wL wR : Surf) :
    ContDiffAt ℝ 2 (fun y => c1MatOut2 α μ (L y) (R y) vL vR wL wR) x := by
  have a := (hL.n1 vL).dot hR.n
  have a' := (hL.n1 wL).dot hR.n
  have b := (hR.n1 vR).dot hL.n
  have b' := (hR.n1 wR).dot hL.n
  have k : ∀ {f g : V → ℝ}, ContDiffAt ℝ 2 f x → ContDiffAt ℝ 2 g x →
    ContDiffAt ℝ 2 (fun y => α * f y * g y * μ) x := fun hf hg => prod_smooth α μ hf hg
  exact (((((((k a a').add (k a b')).add (k b a')).add (k b b')).add (k b b')).add (k b a')).add (k a b')).add (k a a')

theorem c1MatIn2_smooth (hL : Smooth L x) (hR : Smooth R x) (α μ : ℝ) (vL vR wL wR : Surf) :
    ContDiffAt ℝ 2 (fun y => c1MatIn2 α μ (L y) (R y) vL vR wL wR) x := by
  have a := (hL.o1 vL).dot hR.n
  have a' := (hL.o1 wL).dot hR.n
  have b := (hL.n1 vL).dot hR.o
  have b' := (hL.n1 wL).dot hR.o
  have c := (hR.n1 vR).dot hL.o
  have c' := (hR.n1 wR).dot hL.o
  have d := (hR.o1 vR).dot hL.n
  have d' := (hR.o1 wR).dot hL.n
  have k : ∀ {f g : V → ℝ}, ContDiffAt ℝ 2 f x → ContDiffAt ℝ 2 g x →
    ContDiffAt ℝ 2 (fun y => α * f y * g y * μ) x := fun hf hg => prod_smooth α μ hf hg
  exact ((((k a a').add (k b b')).add ((k a c').add (k b d'))).add ((k c a').add (k d b'))).add ((k c c').add (k d d'))

end Smooth

/-! ## The interfaces -/

variable {J κ ι : Type} [Fintype J] {x : EuclideanSpace ℝ J}

theorem surf_smooth (S : Edge J ι) (x : EuclideanSpace ℝ J) (q : ι) : SSmooth (fun y => S.surf y q) x :=
  deformed_smooth _ x q

theorem surf_shift [DecidableEq J] (S : Edge J ι) (x : EuclideanSpace ℝ J) (q : ι) (j : J) (τ : ℝ) :
    S.surf (x + τ • EuclideanSpace.single j (1 : ℝ)) q = shift (S.surf x q) (S.field q j) τ :=
  deformed_shift _ x q j τ

theorem surf_zero (S : Edge J ι) (q : ι) : S.surf 0 q = S.pre q := deformed_zero _ q

theorem side_line [DecidableEq J] (S : Edge J ι) (x : EuclideanSpace ℝ J) (q : ι) (j : J) (τ : ℝ) :
    S.side (x + τ • EuclideanSpace.single j (1 : ℝ)) q
      = sideCurve (S.surf x q) (S.field q j) (S.c q) (S.σ q) τ := by
  rw [Edge.side, surf_shift]; rfl

theorem curve_zero (S : Edge J ι) (x : EuclideanSpace ℝ J) (q : ι) (w : Surf) :
    sideCurve (S.surf x q) w (S.c q) (S.σ q) 0 = S.side x q := by
  simp only [sideCurve, shift_zero]; rfl

theorem edge_smooth (S : Edge J ι) (q : ι) (h : Indep ((S.surf x q).a 0) ((S.surf x q).a 1))
    (hσ : S.σ q = 1 ∨ S.σ q = -1) : Smooth (fun y => S.side y q) x :=
  side_smooth (surf_smooth S x q) h (S.c q) hσ

theorem disp_line [DecidableEq J] (u : J → Vd 3) (g : Vd 3) (x : EuclideanSpace ℝ J) (j : J) (τ : ℝ) :
    disp u g (x + τ • EuclideanSpace.single j (1 : ℝ)) = fun i => disp u g x i + τ * u j i := by
  funext i
  simp [disp, add_mul, Finset.sum_add_distrib, PiLp.single_apply, add_assoc]

theorem disp_smooth (u : J → Vd 3) (g : Vd 3) (x : EuclideanSpace ℝ J) (i : Fin 3) :
    ContDiffAt ℝ 2 (fun y => disp u g y i) x := by
  unfold disp
  exact contDiffAt_const.add (ContDiffAt.sum fun j _ => (coord_smooth j x).mul contDiffAt_const)

theorem c0Vec_smooth (α μ : ℝ) (uL uR : J → Vd 3) (gL gR vL vR : Vd 3) (x : EuclideanSpace ℝ J) :
    ContDiffAt ℝ 2 (fun y => c0Vec3 α μ (disp uL gL y) (disp uR gR y) vL vR) x := by
  have h : ∀ v : Vd 3, ContDiffAt ℝ 2 (fun y => dotd v (fun i => disp uL gL y i - disp uR gR y i)) x := fun v => by
    unfold dotd
    exact ContDiffAt.sum fun i _ => contDiffAt_const.mul ((disp_smooth uL gL x i).sub (disp_smooth uR gR x i))
  exact ((contDiffAt_const.mul (h vL)).mul contDiffAt_const).add ((contDiffAt_const.mul (h vR)).mul contDiffAt_const)

variable {P : Problem J κ} {G : Joins J ι}

theorem c1Vec_smooth (hg : Signs G) (hx : x ∈ Spec.JoinedShell.Admissible P G) {q : ι} (hq : q ∈ G.Q1) (j : J) :
    ContDiffAt ℝ 2 (fun y => c1Vec G y j q) x := by
  have hL := edge_smooth G.L q (hx.2 q hq).1 (hg q hq).1
  have hR := edge_smooth G.R q (hx.2 q hq).2 (hg q hq).2
  exact (c1VecOut_smooth hL hR _ _ _ _ _).add (c1VecIn_smooth hL hR _ _ _ _ _ _)

theorem c1Mat_smooth (hg : Signs G) (hx : x ∈ Spec.JoinedShell.Admissible P G) {q : ι} (hq : q ∈ G.Q1) (j j' : J) :
    ContDiffAt ℝ 2 (fun y => c1Mat G y j j' q) x := by
  have hL := edge_smooth G.L q (hx.2 q hq).1 (hg q hq).1
  have hR := edge_smooth G.R q (hx.2 q hq).2 (hg q hq).2
  exact (((c1MatOut1_smooth hL hR _ _ _ _ _ _ _).add (c1MatOut2_smooth hL hR _ _ _ _ _ _)).add
    (c1MatIn1_smooth hL hR _ _ _ _ _ _ _ _)).add (c1MatIn2_smooth hL hR _ _ _ _ _ _)

theorem admissible_nhds (hx : x ∈ Spec.JoinedShell.Admissible P G) : Spec.JoinedShell.Admissible P G ∈ 𝓝 x := by
  have h : ∀ q ∈ G.Q1, ∀ᶠ y in 𝓝 x, Indep ((G.L.surf y q).a 0) ((G.L.surf y q).a 1) ∧
      Indep ((G.R.surf y q).a 0) ((G.R.surf y q).a 1) := fun q hq =>
    (indep_near (surf_smooth G.L x q) (hx.2 q hq).1).and (indep_near (surf_smooth G.R x q) (hx.2 q hq).2)
  filter_upwards [ShellSystem.admissible_nhds P hx.1, (Filter.eventually_all_finset G.Q1).2 h] with y h1 h2
  exact ⟨h1, h2⟩

/-- What the joints add to the residual. -/
noncomputable def joint (G : Joins J ι) (x : EuclideanSpace ℝ J) (j : J) : ℝ :=
  quad G.Q0 G.w0 (fun q => c0Vec3 (G.a0 q) (G.μ0 q) (disp (G.uL q) (G.gL q) x) (disp (G.uR q) (G.gR q) x)
      (G.uL q j) (G.uR q j)) + quad G.Q1 G.w1 (c1Vec G x j)

/-- What the joints add to the tangent. -/
noncomputable def jointEntry (G : Joins J ι) (x : EuclideanSpace ℝ J) (j j' : J) : ℝ :=
  quad G.Q0 G.w0 (fun q => c0Mat (G.a0 q) (G.μ0 q) (G.uL q j) (G.uR q j) (G.uL q j') (G.uR q j'))
    + quad G.Q1 G.w1 (c1Mat G x j j')

theorem joint_smooth (hg : Signs G) (hx : x ∈ Spec.JoinedShell.Admissible P G) (j : J) :
    ContDiffAt ℝ 2 (fun y => joint G y j) x := by
  unfold joint quad
  exact (ContDiffAt.sum fun q _ => contDiffAt_const.mul (c0Vec_smooth _ _ _ _ _ _ _ _ x)).add
    (ContDiffAt.sum fun q hq => contDiffAt_const.mul (c1Vec_smooth hg hx hq j))

theorem jointEntry_smooth (hg : Signs G) (hx : x ∈ Spec.JoinedShell.Admissible P G) (j j' : J) :
    ContDiffAt ℝ 2 (fun y => jointEntry G y j j') x := by
  unfold jointEntry quad
  exact contDiffAt_const.add (ContDiffAt.sum fun q hq => contDiffAt_const.mul (c1Mat_smooth hg hx hq j j'))

/-- The springs. -/
noncomputable def springs (G : Joins J ι) (x : EuclideanSpace ℝ J) : ℝ :=
  ∑ q ∈ G.Q0, G.w0 q * (G.a0 q / 2 * gap G x q * G.μ0 q)
    + ∑ q ∈ G.Q1, G.w1 q * (G.a1 q / 2 * twist G q (G.L.surf x q) (G.R.surf x q) * G.μ1 q)

theorem twist_energy (G : Joins J ι) (x : EuclideanSpace ℝ J) (q : ι) :
    G.a1 q / 2 * twist G q (G.L.surf x q) (G.R.surf x q) * G.μ1 q
      = angleEnergy (G.a1 q) (G.μ1 q) (G.L.side x q) (G.R.side x q) (dot (G.L.rest q).n (G.R.rest q).n)
        + outerEnergy (G.a1 q) (G.μ1 q) (G.L.side x q) (G.R.side x q) (dot (G.L.rest q).o (G.R.rest q).n)
          (dot (G.R.rest q).o (G.L.rest q).n) := by
  have e : twist G q (G.L.surf x q) (G.R.surf x q)
      = 2 * (dot (G.L.side x q).n (G.R.side x q).n - dot (G.L.rest q).n (G.R.rest q).n) ^ 2
        + (dot (G.L.side x q).o (G.R.side x q).n - dot (G.L.rest q).o (G.R.rest q).n) ^ 2
        + (dot (G.R.side x q).o (G.L.side x q).n - dot (G.R.rest q).o (G.L.rest q).n) ^ 2 := rfl
  rw [e]
  unfold angleEnergy outerEnergy
  rw [dot_comm (G.R.side x q).n (G.L.side x q).n]
  ring

theorem springs_line [DecidableEq J] (hg : Signs G) (hx : x ∈ Spec.JoinedShell.Admissible P G) (j : J) :
    HasDerivAt (fun τ : ℝ => springs G (x + τ • EuclideanSpace.single j (1 : ℝ))) (-joint G x j) 0 := by
  have h0 := fun q => C72_energy_partial (G.a0 q) (G.μ0 q) (disp (G.uL q) (G.gL q) x) (disp (G.uR q) (G.gR q) x)
    (G.uL q j) (G.uR q j)
  have h1 : ∀ q ∈ G.Q1, HasDerivAt (fun τ : ℝ => angleEnergy (G.a1 q) (G.μ1 q)
        (sideCurve (G.L.surf x q) (G.L.field q j) (G.L.c q) (G.L.σ q) τ)
        (sideCurve (G.R.surf x q) (G.R.field q j) (G.R.c q) (G.R.σ q) τ) (dot (G.L.rest q).n (G.R.rest q).n)
      + outerEnergy (G.a1 q) (G.μ1 q)
        (sideCurve (G.L.surf x q) (G.L.field q j) (G.L.c q) (G.L.σ q) τ)
        (sideCurve (G.R.surf x q) (G.R.field q j) (G.R.c q) (G.R.σ q) τ) (dot (G.L.rest q).o (G.R.rest q).n)
          (dot (G.R.rest q).o (G.L.rest q).n)) (-c1Vec G x j q) 0 := by
    intro q hq
    have a := sideCurve_nvar (G.L.surf x q) (G.L.field q j) (G.L.field q j) (hx.2 q hq).1 (G.L.c q) (G.L.σ q)
    have b := sideCurve_nvar (G.R.surf x q) (G.R.field q j) (G.R.field q j) (hx.2 q hq).2 (G.R.c q) (G.R.σ q)
    have c := sideCurve_o (G.L.surf x q) (G.L.field q j) (hx.2 q hq).1 (G.L.c q) _ (hg q hq).1
    have d := sideCurve_o (G.R.surf x q) (G.R.field q j) (hx.2 q hq).2 (G.R.c q) _ (hg q hq).2
    have e1 := out_force (G.a1 q) (G.μ1 q) (dot (G.L.rest q).n (G.R.rest q).n) _ _ _ _ a.1 b.1
    have e2 := in_force (G.a1 q) (G.μ1 q) (dot (G.L.rest q).o (G.R.rest q).n)
      (dot (G.R.rest q).o (G.L.rest q).n) _ _ _ _ a.1 b.1 c d
    refine (e1.add e2).congr_deriv ?_
    rw [curve_zero, curve_zero, c1Vec]; ring
  have hs := (quad_hasDeriv G.Q0 G.w0 _ _ 0 fun q _ => h0 q).add (quad_hasDeriv G.Q1 G.w1 _ _ 0 h1)
  refine (hs.congr_deriv ?_).congr_of_eventuallyEq (Eventually.of_forall fun τ => ?_)
  · rw [quad_neg, quad_neg, joint]; ring
  · have e0 : ∀ q, G.a0 q / 2 * gap G (x + τ • EuclideanSpace.single j (1 : ℝ)) q * G.μ0 q
        = jumpEnergy (G.a0 q) (G.μ0 q) (fun i => disp (G.uL q) (G.gL q) x i + τ * G.uL q j i)
          (fun i => disp (G.uR q) (G.gR q) x i + τ * G.uR q j i) := by
      intro q
      rw [← disp_line, ← disp_line]; rfl
    simp only [springs, e0, twist_energy, side_line, Pi.add_apply]
    rfl

theorem springs_smooth (hg : Signs G) (hx : x ∈ Spec.JoinedShell.Admissible P G) :
    ContDiffAt ℝ 2 (springs G) x := by
  unfold springs gap
  refine (ContDiffAt.sum fun q _ => contDiffAt_const.mul ((contDiffAt_const.mul (ContDiffAt.sum fun i _ =>
    ((disp_smooth (G.uL q) (G.gL q) x i).sub (disp_smooth (G.uR q) (G.gR q) x i)).pow 2)).mul contDiffAt_const)).add
    (ContDiffAt.sum fun q hq => contDiffAt_const.mul ?_)
  have hL := edge_smooth G.L q (hx.2 q hq).1 (hg q hq).1
  have hR := edge_smooth G.R q (hx.2 q hq).2 (hg q hq).2
  simp only [twist_energy]
  exact ((contDiffAt_const.mul ((((hL.n.dot hR.n).sub contDiffAt_const).pow 2).add
      (((hR.n.dot hL.n).sub contDiffAt_const).pow 2))).mul contDiffAt_const).add
    ((contDiffAt_const.mul ((((hL.o.dot hR.n).sub contDiffAt_const).pow 2).add
      (((hR.o.dot hL.n).sub contDiffAt_const).pow 2))).mul contDiffAt_const)

/-! ## The tangent of the joints -/

/-- A side with the exact second variation of the outer normal. -/
noncomputable def exact (c : Fin 2) (σ : ℝ) (s : Surf) : Side Surf :=
  { sideOf s (σ • s.a c) with o2 := ovar2C s c σ }

theorem exact_ovar (s v w : Surf) (h : Indep (s.a 0) (s.a 1)) (c : Fin 2) {σ : ℝ} (hσ : σ = 1 ∨ σ = -1) :
    OVar (fun τ => exact c σ (shift s w τ)) v w := by
  refine ⟨?_, ?_⟩
  · have := sideCurve_o s w h c σ hσ
    exact this
  · have h2 : (exact c σ (shift s w 0)).o2 v w = ovar2C s c σ v w := by rw [shift_zero]; rfl
    rw [h2]
    refine (hasVDeriv_ovarC s v w h c σ hσ).congr_eventually ?_
    filter_upwards [eventually_indep s w h] with t ht
    exact sideOf_o1 _ (Variation.indep_of_cross ht) c σ hσ v

/-- Where the angles are those of the undeformed shell the in-plane matrix is exact, for all
parametrisations. -/
theorem in_line (α μ lr0 rl0 : ℝ) {sL sR : Surf} (hL : Indep (sL.a 0) (sL.a 1)) (hR : Indep (sR.a 0) (sR.a 1))
    (cL cR : Fin 2) {σL σR : ℝ} (hσL : σL = 1 ∨ σL = -1) (hσR : σR = 1 ∨ σR = -1) (vL vR wL wR : Surf)
    (h0 : dnN (sideOf sL (σL • sL.a cL)) (sideOf sR (σR • sR.a cR)) lr0 = 0)
    (h0' : dnN (sideOf sR (σR • sR.a cR)) (sideOf sL (σL • sL.a cL)) rl0 = 0) :
    HasDerivAt (fun τ => c1VecIn α μ (sideCurve sL wL cL σL τ) (sideCurve sR wR cR σR τ) lr0 rl0 vL vR)
      (-(c1MatIn1 α μ (sideOf sL (σL • sL.a cL)) (sideOf sR (σR • sR.a cR)) lr0 rl0 vL vR wL wR
        + c1MatIn2 α μ (sideOf sL (σL • sL.a cL)) (sideOf sR (σR • sR.a cR)) vL vR wL wR)) 0 := by
  have h := in_tangent α μ lr0 rl0 (fun τ => exact cL σL (shift sL wL τ)) (fun τ => exact cR σR (shift sR wR τ))
    vL vR wL wR (sideCurve_nvar sL vL wL hL cL σL) (sideCurve_nvar sR vR wR hR cR σR)
    (exact_ovar sL vL wL hL cL hσL) (exact_ovar sR vR wR hR cR hσR)
  simp only [shift_zero] at h
  have k0 : dnN (exact cL σL sL) (exact cR σR sR) lr0 = 0 := h0
  have k0' : dnN (exact cR σR sR) (exact cL σL sL) rl0 = 0 := h0'
  refine HasDerivAt.congr_deriv (f := fun τ => c1VecIn α μ (sideCurve sL wL cL σL τ) (sideCurve sR wR cR σR τ)
    lr0 rl0 vL vR) h ?_
  have e : c1MatIn2 α μ (exact cL σL sL) (exact cR σR sR) vL vR wL wR
      = c1MatIn2 α μ (sideOf sL (σL • sL.a cL)) (sideOf sR (σR • sR.a cR)) vL vR wL wR := rfl
  rw [e]
  unfold inDefect c1MatIn1
  rw [h0, h0', k0, k0']
  ring

theorem dnN_zero {q : ι} (h : Unfolded G q (G.L.surf x q) (G.R.surf x q)) :
    dnN (G.L.side x q) (G.R.side x q) (dot (G.L.rest q).o (G.R.rest q).n) = 0 ∧
    dnN (G.R.side x q) (G.L.side x q) (dot (G.R.rest q).o (G.L.rest q).n) = 0 :=
  ⟨sub_eq_zero.2 h.1, sub_eq_zero.2 h.2⟩

/-- Derivative of the forces of the joints along one unknown. -/
theorem joint_line [DecidableEq J] (hg : Signs G) (hx : x ∈ Spec.JoinedShell.Admissible P G)
    (hu : ∀ q ∈ G.Q1, Unfolded G q (G.L.surf x q) (G.R.surf x q)) (j j' : J) :
    HasDerivAt (fun τ : ℝ => joint G (x + τ • EuclideanSpace.single j' (1 : ℝ)) j) (-jointEntry G x j j') 0 := by
  have h0 := C72_tangent_partial G.Q0 G.w0 G.a0 G.μ0 (fun q => disp (G.uL q) (G.gL q) x)
    (fun q => disp (G.uR q) (G.gR q) x) (fun q => G.uL q j) (fun q => G.uR q j) (fun q => G.uL q j')
    (fun q => G.uR q j')
  have h1 : ∀ q ∈ G.Q1, HasDerivAt (fun τ : ℝ => c1VecOut (G.a1 q) (G.μ1 q)
        (sideCurve (G.L.surf x q) (G.L.field q j') (G.L.c q) (G.L.σ q) τ)
        (sideCurve (G.R.surf x q) (G.R.field q j') (G.R.c q) (G.R.σ q) τ) (dot (G.L.rest q).n (G.R.rest q).n)
        (G.L.field q j) (G.R.field q j)
      + c1VecIn (G.a1 q) (G.μ1 q)
        (sideCurve (G.L.surf x q) (G.L.field q j') (G.L.c q) (G.L.σ q) τ)
        (sideCurve (G.R.surf x q) (G.R.field q j') (G.R.c q) (G.R.σ q) τ) (dot (G.L.rest q).o (G.R.rest q).n)
          (dot (G.R.rest q).o (G.L.rest q).n) (G.L.field q j) (G.R.field q j)) (-c1Mat G x j j' q) 0 := by
    intro q hq
    have a := sideCurve_nvar (G.L.surf x q) (G.L.field q j) (G.L.field q j') (hx.2 q hq).1 (G.L.c q) (G.L.σ q)
    have b := sideCurve_nvar (G.R.surf x q) (G.R.field q j) (G.R.field q j') (hx.2 q hq).2 (G.R.c q) (G.R.σ q)
    have e1 := out_tangent (G.a1 q) (G.μ1 q) (dot (G.L.rest q).n (G.R.rest q).n) _ _ _ _ _ _ a b
    have e2 := in_line (G.a1 q) (G.μ1 q) (dot (G.L.rest q).o (G.R.rest q).n)
      (dot (G.R.rest q).o (G.L.rest q).n) (hx.2 q hq).1 (hx.2 q hq).2 (G.L.c q) (G.R.c q) (hg q hq).1 (hg q hq).2
      (G.L.field q j) (G.R.field q j) (G.L.field q j') (G.R.field q j') (dnN_zero (hu q hq)).1 (dnN_zero (hu q hq)).2
    refine (e1.add e2).congr_deriv ?_
    rw [curve_zero, curve_zero, c1Mat]
    simp only [Edge.side, Edge.sideAt]; ring
  have hs := h0.add (quad_hasDeriv G.Q1 G.w1 _ _ 0 h1)
  refine (hs.congr_deriv ?_).congr_of_eventuallyEq (Eventually.of_forall fun τ => ?_)
  · rw [quad_neg, jointEntry]; ring
  · simp only [joint, disp_line, Pi.add_apply]
    congr 1
    refine Finset.sum_congr rfl fun q _ => ?_
    simp only [c1Vec, side_line]

end Verif.JoinedShell
