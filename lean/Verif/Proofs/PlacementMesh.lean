import Verif.Proofs.Placement
import Verif.Model.MarchingCubes
import Verif.Model.UniformDC
import Verif.Model.MdcOctree
import Verif.Model.DmcOctree

/-! The placement of a grid does not influence the mesh made from it. -/

namespace Isomesh
open Spec

variable {K : Type} [Add K] [Sub K] [Mul K] [Div K] [Neg K] [Zero K] [One K] [OfNat K 2] [OfScientific K] [NatCast K] [IntCast K]
  [Fabs K] [Elem K] [LinearOrder K]

omit [Sub K] [Mul K] [Div K] [Neg K] [Zero K] [One K] [OfNat K 2] [OfScientific K] [NatCast K] [Fabs K] [Elem K] [LinearOrder K] in
theorem mc_place (nrm : Vec3 K → Vec3 K) (g : Grid K) (p : Vec3 K) (st : K) :
    marchingCubes nrm (g.place p st) = (marchingCubes nrm g).map fun m => ⟨m.mesh, p, st⟩ := by
  have h1 : ∀ its mesh, mcLoop (g.place p st) its mesh = mcLoop g its mesh := by
    intro its mesh
    with_unfolding_all rfl
  have h2 : ∀ D mesh, collectCellEdges nrm (g.place p st) D mesh = collectCellEdges nrm g D mesh := fun D mesh => by
    cases D <;> rfl
  simp only [marchingCubes, h1, h2]
  cases collectCellEdges nrm g .X Mesh.new with
  | none => rfl
  | some sx =>
    simp only [Option.bind_eq_bind, Option.bind_some]
    cases collectCellEdges nrm g .Y sx.mesh with
    | none => rfl
    | some sy =>
      simp only [Option.bind_some]
      cases collectCellEdges nrm g .Z sy.mesh with
      | none => rfl
      | some sz =>
        simp only [Option.bind_some]
        generalize mcLoop g _ _ = r
        cases r <;> rfl

theorem dc_place (env : DcEnv K) (g : Grid K) (p : Vec3 K) (st : K) (q : Qef K 3) :
    dualContouring env (g.place p st) q = (dualContouring env g q).map fun r => (r.1, ⟨r.2.mesh, p, st⟩) := by
  have h1 : ∀ l s, dcDualVertices env (g.place p st) l s = dcDualVertices env g l s := by
    intro its mesh
    with_unfolding_all rfl
  have h2 : ∀ D l, dcCollect (g.place p st) D l = dcCollect g D l := fun D l => by cases D <;> rfl
  have h3 : ∀ D ids m, dcQuads (g.place p st) D ids m = dcQuads g D ids m := fun D ids m => by cases D <;> rfl
  have h4 : (g.place p st).dataSize = g.dataSize := rfl
  simp only [dualContouring, h1, h2, h3, h4]
  cases dcCollect g .X [] with
  | none => rfl
  | some l1 =>
    simp only [Option.bind_eq_bind, Option.bind_some]
    cases dcCollect g .Y l1 with
    | none => rfl
    | some l2 =>
      simp only [Option.bind_some]
      cases dcCollect g .Z l2 with
      | none => rfl
      | some l3 =>
        simp only [Option.bind_some]
        cases dcDualVertices env g (env.srt l3) ⟨q, Mesh.new, List.replicate g.dataSize kBadIndex⟩ with
        | none => rfl
        | some s =>
          simp only [Option.bind_some]
          cases dcQuads g .X s.ids s.mesh with
          | none => rfl
          | some m1 =>
            simp only [Option.bind_some]
            cases dcQuads g .Y s.ids m1 with
            | none => rfl
            | some m2 =>
              simp only [Option.bind_some]
              cases dcQuads g .Z s.ids m2 <;> rfl

theorem dcBuildNode_place (env : DcEnv K) (g : Grid K) (p : Vec3 K) (st : K) (ε : K) (b : Bool) (k : Nat) :
    ∀ (d : Nat) (lo : IVec3) (q : Qef K 3),
      dcBuildNode env (g.place p st) ε b k d lo q = dcBuildNode env g ε b k d lo q := by
  induction k with
  | zero =>
    intro d lo q
    rfl
  | succ k ih =>
    intro d lo q
    simp only [dcBuildNode, ih]

theorem mdcBuildNode_place (env : DcEnv K) (g : Grid K) (p : Vec3 K) (st : K) (k : Nat) :
    ∀ (d : Nat) (lo : IVec3) (q : Qef K 3 × MdcHeap K),
      mdcBuildNode env (g.place p st) k d lo q = mdcBuildNode env g k d lo q := by
  induction k with
  | zero =>
    intro d lo q
    rfl
  | succ k ih =>
    intro d lo q
    simp only [mdcBuildNode, ih]

/-! ### The octree built directly from the field -/

section Dmc
variable {R : Type}

/-- Two sets of arguments of the DMC build, the second of which describes the scaled and moved world. -/
structure MovedArgs (s : ℝ) (t : Vec3 ℝ) (a b : DmcArgs ℝ R) : Prop where
  env : b.env = a.env
  eps : b.epsilon = a.epsilon
  flags : b.flags = a.flags
  level : b.oct.level = a.oct.level
  pos : b.oct.globalPos = moved s t a.oct.globalPos
  scale : b.oct.globalScale = s * a.oct.globalScale
  field : Similar s t a.field b.field

variable {s : ℝ} {t : Vec3 ℝ} {a b : DmcArgs ℝ R}

theorem MovedArgs.global (h : MovedArgs s t a b) (p : Vec3 ℝ) :
    b.oct.localToGlobal p = moved s t (a.oct.localToGlobal p) := by
  unfold DmcOctree.localToGlobal
  rw [h.pos, h.scale]
  simp only [moved, Vec3.mk.injEq]
  refine ⟨?_, ?_, ?_⟩ <;> ring

theorem MovedArgs.sample (hs : 0 < s) (h : MovedArgs s t a b) (lo : IVec3) : dmcSample b lo = dmcSample a lo := by
  funext x off
  have e1 : dmcPoint b lo off = dmcPoint a lo off := by
    unfold dmcPoint
    simp only [h.global, h.field.value, h.scale]
    rw [mul_div_mul_left _ _ hs.ne']
  have e2 : dmcGrad b lo off = dmcGrad a lo off := by
    unfold dmcGrad
    rw [h.global, h.field.grad]
  unfold dmcSample
  rw [e1, e2, h.env]

theorem MovedArgs.generate (hs : 0 < s) (h : MovedArgs s t a b) (lo : IVec3) (k : Nat) (x : Qef ℝ 4 × R) :
    dmcGenerate b lo k x = dmcGenerate a lo k x := by
  have e1 : dmcOffsets b k x.2 = dmcOffsets a k x.2 := by
    unfold dmcOffsets; rw [h.flags, h.env]
  have e2 : ∀ q, dmcSolve b q lo k = dmcSolve a q lo k := by
    intro q; unfold dmcSolve; rw [h.eps, h.env]
  have e3 : ∀ v w, b.field.material (b.oct.localToGlobal v) (w * b.oct.globalScale) =
      a.field.material (a.oct.localToGlobal v) (w * a.oct.globalScale) := by
    intro v w
    rw [h.global, h.scale, mul_left_comm, h.field.material]
  unfold dmcGenerate
  simp only [e1, e2, e3, h.sample hs, h.eps, h.env]

theorem MovedArgs.corner (h : MovedArgs s t a b) (lo : IVec3) (k i : Nat) : dmcCorner b lo k i = moved s t (dmcCorner a lo k i) := by
  unfold dmcCorner
  simp only [h.global, h.scale, Vec3.add, moved, Vec3.mk.injEq]
  refine ⟨?_, ?_, ?_⟩ <;> ring

theorem MovedArgs.value (h : MovedArgs s t a b) (lo : IVec3) (k i : Nat) : dmcValue b lo k i = s * dmcValue a lo k i := by
  unfold dmcValue
  rw [h.corner, h.field.value]

theorem MovedArgs.stop (hs : 0 < s) (h : MovedArgs s t a b) (lo : IVec3) (k : Nat) : dmcShouldStop b lo k = dmcShouldStop a lo k := by
  unfold dmcShouldStop
  simp only [h.value, h.scale, fabs_abs, abs_mul, abs_of_pos hs]
  congr 1
  funext i
  rw [show sizeK k * (s * a.oct.globalScale) * Elem.sqrt ((3 : Nat) : ℝ) =
    s * (sizeK k * a.oct.globalScale * Elem.sqrt ((3 : Nat) : ℝ)) by ring]
  simp only [mul_le_mul_iff_of_pos_left hs]

/-- A translation does not change the splitting criterion. -/
theorem MovedArgs.split (h : MovedArgs 1 t a b) (lo : IVec3) (k : Nat) : dmcShouldSplit b lo k = dmcShouldSplit a lo k := by
  have hsc : b.oct.globalScale = a.oct.globalScale := by rw [h.scale, one_mul]
  have hv : ∀ i, dmcValue b lo k i = dmcValue a lo k i := fun i => by rw [h.value, one_mul]
  have hadd : ∀ (p o : Vec3 ℝ), (moved 1 t p).add o = moved 1 t (p.add o) := by
    intro p o
    simp only [moved, Vec3.add, Vec3.mk.injEq]
    refine ⟨?_, ?_, ?_⟩ <;> ring
  have ht : ∀ i o x, dmcTerm b ((dmcCorner b lo k i).add o) x = dmcTerm a ((dmcCorner a lo k i).add o) x := by
    intro i o x
    unfold dmcTerm
    rw [h.corner, hadd, h.field.value, h.field.grad, one_mul]
  unfold dmcShouldSplit dmcEdgeTerms dmcFaceTerms dmcCellTerm
  simp only [hsc, hv, ht, h.eps]

theorem MovedArgs.build (hs : 0 < s) (h : MovedArgs s t a b) (hw : s = 1 ∨ a.flags.simpleSplit = false) (k : Nat) :
    ∀ (lo : IVec3) (x : Qef ℝ 4 × R), dmcBuildNode b k lo x = dmcBuildNode a k lo x := by
  induction k with
  | zero => intro lo x; simp only [dmcBuildNode, h.generate hs]
  | succ k ih =>
    intro lo x
    rcases hw with rfl | hw
    · simp only [dmcBuildNode, h.generate hs, ih, h.flags, h.level, h.stop hs, h.split]
    · simp only [dmcBuildNode, h.generate hs, ih, h.flags, h.level, h.stop hs, hw, Bool.false_eq_true, if_false]

end Dmc

end Isomesh
