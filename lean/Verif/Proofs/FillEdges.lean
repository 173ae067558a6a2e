import Verif.Proofs.Fill
import Verif.Spec.Fill

/-! The edge loops of `UniformGrid::fill`. -/

set_option linter.unusedSectionVars false

namespace Isomesh
open Spec

variable {K : Type} [Add K] [Sub K] [Mul K] [Div K] [Zero K] [IntCast K] [LE K] [LT K] [DecidableLE K] [DecidableLT K]

theorem gpos_eq (g : Grid K) (p : IVec3) : g.gpos p = worldPos g.globalPos g.step p := rfl

theorem vertexMaterial_le {K : Type} [Zero K] [LinearOrder K] (f : ScalarField K) (q : Vec3 K) :
    vertexMaterial f q = if f.value q ≤ 0 then f.material q (f.value q) else .Empty := by
  unfold vertexMaterial
  by_cases h : f.value q ≤ 0
  · rw [if_pos h, if_neg (not_lt.2 h)]
  · rw [if_neg h, if_pos (not_le.1 h)]

theorem sampleMat_eq (g : Grid K) (f : ScalarField K) (p : IVec3) : sampleMat g f p = vertexMaterial f (g.spos p) := by
  rfl

/-- Contribution of one lattice edge to the edge storage. -/
noncomputable def edgeOutR (g : Grid K) (f : ScalarField K) (solver : ZeroFinder K) (D : Axis) (p : IVec3) :
    List (GridEdge K) :=
  open Classical in
  if Crosses f g.spos D p then [sampledRecord f solver g.spos g.gpos g.step D p] else []

/-- The contents of the sampled arrays. -/
structure Sampled (g : Grid K) (f : ScalarField K) (values : List K) (mat : List (Option Material)) : Prop where
  vals : ∀ p, InCube g.half p → values[g.vidx p]? = some (f.value (g.spos p))
  mats : ∀ p, InCube g.half p → mat[g.vidx p]? = some (some (sampleMat g f p))

theorem fits_of_inCube {g : Grid K} (hg : g.WF) {p : IVec3} (hp : InCube g.half p) :
    (fitsInt16 p.x && fitsInt16 p.y && fitsInt16 p.z) = true := by
  have := hg.half_eq
  have := hg.le
  obtain ⟨⟨_, _⟩, ⟨_, _⟩, _, _⟩ := hp
  unfold fitsInt16
  simp
  omega

theorem addEdge_ok {g : Grid K} (hg : g.WF) (l : List (GridEdge K)) (e : GridEdge K) (hp : InCube g.half e.lesser) :
    addEdge l e = some (l ++ [e]) := by
  unfold addEdge
  rw [fits_of_inCube hg hp]
  rfl

theorem edgeBodyX_step {g : Grid K} (hg : g.WF) {f : ScalarField K} {solver : ZeroFinder K} {values mat}
    (h : Sampled g f values mat) {s : EdgeState K} {x y z : Int}
    (hp : InCube g.half ⟨x, y, z⟩) (hq : InCube g.half (edgeEnd .X ⟨x, y, z⟩))
    (h1 : s.idx1 = g.vidx ⟨x, y, z⟩) (h2 : s.idx2 = g.vidx (edgeEnd .X ⟨x, y, z⟩)) :
    edgeBodyX g f solver values mat s x y z =
      some ⟨s.idx1 + 1, s.idx2 + 1, s.edges ++ edgeOutR g f solver .X ⟨x, y, z⟩⟩ := by
  have l1 := Grid.vidx_lt hg hp
  have l2 := Grid.vidx_lt hg hq
  have hc := cube_lt hg.le
  have u1 : u32 (s.idx1 + 1) = s.idx1 + 1 := u32_of_lt (by omega)
  have u2 : u32 (s.idx2 + 1) = s.idx2 + 1 := u32_of_lt (by omega)
  have hg' : g.localToGlobal ⟨(x : K), (y : K), (z : K)⟩ = g.gpos ⟨x, y, z⟩ := rfl
  unfold edgeBodyX edgeOutR
  rw [h1, h2] at *
  rw [h.vals _ hp, h.vals _ hq, h.mats _ hp, h.mats _ hq]
  simp only [Option.bind_eq_bind, Option.bind_some, Option.join_some, hg', u1, u2]
  by_cases c1 : f.value (g.spos ⟨x, y, z⟩) ≤ 0 <;>
    by_cases c2 : f.value (g.spos (edgeEnd .X ⟨x, y, z⟩)) ≤ 0 <;>
    simp [Crosses, c1, c2, addEdge_ok hg, hp, sampledRecord, sampledCoord, Vec3.get, Vec3.set, sampleMat_eq]

theorem edgeBodyY_step {g : Grid K} (hg : g.WF) {f : ScalarField K} {solver : ZeroFinder K} {values mat}
    (h : Sampled g f values mat) {s : EdgeState K} {x y z : Int}
    (hp : InCube g.half ⟨x, y, z⟩) (hq : InCube g.half (edgeEnd .Y ⟨x, y, z⟩))
    (h1 : s.idx1 = g.vidx ⟨x, y, z⟩) (h2 : s.idx2 = g.vidx (edgeEnd .Y ⟨x, y, z⟩)) :
    edgeBodyY g f solver values mat s x y z =
      some ⟨s.idx1 + 1, s.idx2 + 1, s.edges ++ edgeOutR g f solver .Y ⟨x, y, z⟩⟩ := by
  have l1 := Grid.vidx_lt hg hp
  have l2 := Grid.vidx_lt hg hq
  have hc := cube_lt hg.le
  have u1 : u32 (s.idx1 + 1) = s.idx1 + 1 := u32_of_lt (by omega)
  have u2 : u32 (s.idx2 + 1) = s.idx2 + 1 := u32_of_lt (by omega)
  have hg' : g.localToGlobal ⟨(x : K), (y : K), (z : K)⟩ = g.gpos ⟨x, y, z⟩ := rfl
  unfold edgeBodyY edgeOutR
  rw [h1, h2] at *
  rw [h.vals _ hp, h.vals _ hq, h.mats _ hp, h.mats _ hq]
  simp only [Option.bind_eq_bind, Option.bind_some, Option.join_some, hg', u1, u2]
  by_cases c1 : f.value (g.spos ⟨x, y, z⟩) ≤ 0 <;>
    by_cases c2 : f.value (g.spos (edgeEnd .Y ⟨x, y, z⟩)) ≤ 0 <;>
    simp [Crosses, c1, c2, addEdge_ok hg, hp, sampledRecord, sampledCoord, Vec3.get, Vec3.set, sampleMat_eq]

theorem edgeBodyZ_step {g : Grid K} (hg : g.WF) {f : ScalarField K} {solver : ZeroFinder K} {values mat}
    (h : Sampled g f values mat) {s : EdgeState K} {x y z : Int}
    (hp : InCube g.half ⟨x, y, z⟩) (hq : InCube g.half (edgeEnd .Z ⟨x, y, z⟩))
    (h1 : s.idx1 = g.vidx ⟨x, y, z⟩) (h2 : s.idx2 = g.vidx (edgeEnd .Z ⟨x, y, z⟩)) :
    edgeBodyZ g f solver values mat s x y z =
      some ⟨s.idx1 + 1, s.idx2 + 1, s.edges ++ edgeOutR g f solver .Z ⟨x, y, z⟩⟩ := by
  have l1 := Grid.vidx_lt hg hp
  have l2 := Grid.vidx_lt hg hq
  have hc := cube_lt hg.le
  have u1 : u32 (s.idx1 + 1) = s.idx1 + 1 := u32_of_lt (by omega)
  have u2 : u32 (s.idx2 + 1) = s.idx2 + 1 := u32_of_lt (by omega)
  have hg' : g.localToGlobal ⟨(x : K), (y : K), (z : K)⟩ = g.gpos ⟨x, y, z⟩ := rfl
  unfold edgeBodyZ edgeOutR
  rw [h1, h2] at *
  rw [h.vals _ hp, h.vals _ hq, h.mats _ hp, h.mats _ hq]
  simp only [Option.bind_eq_bind, Option.bind_some, Option.join_some, hg', u1, u2]
  by_cases c1 : f.value (g.spos ⟨x, y, z⟩) ≤ 0 <;>
    by_cases c2 : f.value (g.spos (edgeEnd .Z ⟨x, y, z⟩)) ≤ 0 <;>
    simp [Crosses, c1, c2, addEdge_ok hg, hp, sampledRecord, sampledCoord, Vec3.get, Vec3.set, sampleMat_eq]

/-- Upper ends (exclusive) of the loops over y, x, z for the edges along `D`. -/
def hiY (g : Grid K) : Axis → Int | .Y => g.half | _ => g.half + 1
def hiX (g : Grid K) : Axis → Int | .X => g.half | _ => g.half + 1
def hiZ (g : Grid K) : Axis → Int | .Z => g.half | _ => g.half + 1

noncomputable def rowZR (g : Grid K) (f : ScalarField K) (sv : ZeroFinder K) (D : Axis) (y x hi : Int) :=
  (irange (-g.half) hi).flatMap fun z => edgeOutR g f sv D ⟨x, y, z⟩
noncomputable def rowXR (g : Grid K) (f : ScalarField K) (sv : ZeroFinder K) (D : Axis) (y hi : Int) :=
  (irange (-g.half) hi).flatMap fun x => rowZR g f sv D y x (hiZ g D)
noncomputable def rowYR (g : Grid K) (f : ScalarField K) (sv : ZeroFinder K) (D : Axis) (hi : Int) :=
  (irange (-g.half) hi).flatMap fun y => rowXR g f sv D y (hiX g D)

/-- The complete expected edge list along `D`. -/
noncomputable def allEdgesR (g : Grid K) (f : ScalarField K) (sv : ZeroFinder K) (D : Axis) : List (GridEdge K) :=
  rowYR g f sv D (hiY g D)

theorem rowZR_succ (g : Grid K) (f : ScalarField K) (sv : ZeroFinder K) (D : Axis) (y x : Int) {z : Int}
    (h : -g.half ≤ z) : rowZR g f sv D y x (z + 1) = rowZR g f sv D y x z ++ edgeOutR g f sv D ⟨x, y, z⟩ := by
  simp [rowZR, irange_succ h]
theorem rowXR_succ (g : Grid K) (f : ScalarField K) (sv : ZeroFinder K) (D : Axis) (y : Int) {x : Int}
    (h : -g.half ≤ x) : rowXR g f sv D y (x + 1) = rowXR g f sv D y x ++ rowZR g f sv D y x (hiZ g D) := by
  simp [rowXR, irange_succ h]
theorem rowYR_succ (g : Grid K) (f : ScalarField K) (sv : ZeroFinder K) (D : Axis) {y : Int}
    (h : -g.half ≤ y) : rowYR g f sv D (y + 1) = rowYR g f sv D y ++ rowXR g f sv D y (hiX g D) := by
  simp [rowYR, irange_succ h]
theorem rowZR_nil (g : Grid K) (f : ScalarField K) (sv : ZeroFinder K) (D : Axis) (y x : Int) :
    rowZR g f sv D y x (-g.half) = [] := by simp [rowZR, irange_self]
theorem rowXR_nil (g : Grid K) (f : ScalarField K) (sv : ZeroFinder K) (D : Axis) (y : Int) :
    rowXR g f sv D y (-g.half) = [] := by simp [rowXR, irange_self]
theorem rowYR_nil (g : Grid K) (f : ScalarField K) (sv : ZeroFinder K) (D : Axis) :
    rowYR g f sv D (-g.half) = [] := by simp [rowYR, irange_self]

/-- Invariant of the edge loops. -/
structure EInv (g : Grid K) (off : Nat) (y x z : Int) (l : List (GridEdge K)) (s : EdgeState K) : Prop where
  i1 : (s.idx1 : Int) = lz g y x z
  i2 : s.idx2 = s.idx1 + off
  edges : s.edges = l

theorem big_bound {g : Grid K} (hg : g.WF) :
    (g.size + 1) * (g.size + 1) * (g.size + 1) + (g.size + 1) * (g.size + 1) + (g.size + 1) < 4294967296 := by
  have h := hg.le
  have h1 : (g.size + 1) * (g.size + 1) ≤ 1025 * 1025 := Nat.mul_le_mul (by omega) (by omega)
  have h2 : (g.size + 1) * (g.size + 1) * (g.size + 1) ≤ 1025 * 1025 * 1025 := Nat.mul_le_mul h1 (by omega)
  omega

theorem vidx_edgeEnd {g : Grid K} (D : Axis) {p : IVec3} (hp : InCube g.half p) (hq : InCube g.half (edgeEnd D p)) :
    g.vidx (edgeEnd D p) = g.vidx p +
      (match D with | .X => g.size + 1 | .Y => (g.size + 1) * (g.size + 1) | .Z => 1) := by
  have h1 := Grid.vidx_int hp
  have h2 := Grid.vidx_int hq
  zify
  rw [h1, h2]
  cases D <;> simp [edgeEnd, shift] <;> ring

theorem fillX_spec {g : Grid K} (hg : g.WF) {f : ScalarField K} {sv : ZeroFinder K} {values mat}
    (h : Sampled g f values mat) :
    ∃ s, fillX g f sv values mat = some s ∧ s.edges = allEdgesR g f sv .X := by
  have hh := hg.half_eq
  have hh2 := hg.two_le
  have hh3 := hg.le
  have hb := big_bound hg
  unfold fillX
  obtain ⟨s, e, hs⟩ := forLE_inv (lo := -g.half) (hi := g.half) (by omega) (s := EdgeState.mk 0 (u32 (g.size + 1)) [])
    (body := fun s y => do
      let s ← forLT (-g.half) g.half s fun s x =>
        forLE (-g.half) g.half s fun s z => edgeBodyX g f sv values mat s x y z
      some { s with idx1 := u32 (s.idx1 + u32 (g.size + 1)), idx2 := u32 (s.idx2 + u32 (g.size + 1)) })
    (fun y s => EInv g (g.size + 1) y (-g.half) (-g.half) (rowYR g f sv .X y) s)
    ⟨by simp [lz], by simp [u32_of_lt (n := g.size + 1) (by omega)], by simp [rowYR_nil]⟩
    (by
      intro y s hy1 hy2 hs
      obtain ⟨s', e', hs'⟩ := forLT_inv (lo := -g.half) (hi := g.half) (by omega) (s := s)
        (body := fun s x => forLE (-g.half) g.half s fun s z => edgeBodyX g f sv values mat s x y z)
        (fun x s => EInv g (g.size + 1) y x (-g.half) (rowYR g f sv .X y ++ rowXR g f sv .X y x) s)
        (by refine ⟨hs.i1, hs.i2, ?_⟩; simp [rowXR_nil, hs.edges])
        (by
          intro x s hx1 hx2 hs
          obtain ⟨s', e', hs'⟩ := forLE_inv (lo := -g.half) (hi := g.half) (by omega) (s := s)
            (body := fun s z => edgeBodyX g f sv values mat s x y z)
            (fun z s => EInv g (g.size + 1) y x z (rowYR g f sv .X y ++ rowXR g f sv .X y x ++ rowZR g f sv .X y x z) s)
            (by refine ⟨hs.i1, hs.i2, ?_⟩; simp [rowZR_nil, hs.edges])
            (by
              intro z s hz1 hz2 hs
              have hp : InCube g.half ⟨x, y, z⟩ := ⟨⟨hx1, by simp only; omega⟩, ⟨hy1, hy2⟩, hz1, hz2⟩
              have hq : InCube g.half (edgeEnd .X ⟨x, y, z⟩) := by
                unfold InCube edgeEnd shift; simp only; omega
              have j1 := vidx_of_lz hp hs.i1
              have j2 := vidx_edgeEnd .X hp hq
              simp only at j2
              refine ⟨_, edgeBodyX_step hg h hp hq j1 (by rw [j2, hs.i2, j1]), ?_, ?_, ?_⟩
              · have := hs.i1; simp only [lz] at this ⊢; push_cast; rw [this]; ring
              · simp only [hs.i2]; ring
              · simp only [hs.edges, rowZR_succ g f sv .X y x hz1, List.append_assoc])
          refine ⟨s', e', ?_, hs'.i2, ?_⟩
          · rw [hs'.i1]; unfold lz; rw [hh]; ring
          · rw [hs'.edges, rowXR_succ g f sv .X y hx1]; simp [hiZ])
      rw [e']
      have hle : s'.idx1 + (g.size + 1) ≤ (g.size + 1) * (g.size + 1) * (g.size + 1) := by
        have := hs'.i1
        zify
        rw [this]
        unfold lz
        have : (y + 1 + g.half) * ((g.size : Int) + 1) * (g.size + 1) ≤ ((g.size : Int) + 1) * (g.size + 1) * (g.size + 1) := by
          apply mul_le_mul_of_nonneg_right _ (by omega)
          apply mul_le_mul_of_nonneg_right _ (by omega)
          omega
        have e3 : ((g.size : Int) + 1) = g.half + g.half + 1 := by omega
        calc _ = (y + 1 + g.half) * ((g.size : Int) + 1) * (g.size + 1) := by
                rw [e3]; ring
          _ ≤ _ := this
      have u0 : u32 (g.size + 1) = g.size + 1 := u32_of_lt (by omega)
      have hi2 := hs'.i2
      have u1 : u32 (s'.idx1 + (g.size + 1)) = s'.idx1 + (g.size + 1) := u32_of_lt (by
        generalize (g.size + 1) * (g.size + 1) * (g.size + 1) = A at *
        generalize (g.size + 1) * (g.size + 1) = B at *
        omega)
      have u2 : u32 (s'.idx2 + (g.size + 1)) = s'.idx2 + (g.size + 1) := u32_of_lt (by
        generalize (g.size + 1) * (g.size + 1) * (g.size + 1) = A at *
        generalize (g.size + 1) * (g.size + 1) = B at *
        omega)
      refine ⟨_, rfl, ?_, ?_, ?_⟩
      · simp only [u0, u1]; push_cast; rw [hs'.i1]; unfold lz; rw [hh]; ring
      · simp only [u0, u1, u2]; omega
      · simp only [hs'.edges]; rw [rowYR_succ g f sv .X hy1]; simp [hiX])
  exact ⟨s, e, by rw [hs.edges]; rfl⟩

theorem fillY_spec {g : Grid K} (hg : g.WF) {f : ScalarField K} {sv : ZeroFinder K} {values mat}
    (h : Sampled g f values mat) :
    ∃ s, fillY g f sv values mat = some s ∧ s.edges = allEdgesR g f sv .Y := by
  have hh := hg.half_eq
  have hh2 := hg.two_le
  have hh3 := hg.le
  have hb := big_bound hg
  have u0 : u32 (u32 (g.size + 1) * u32 (g.size + 1)) = (g.size + 1) * (g.size + 1) := by
    rw [u32_of_lt (n := g.size + 1) (by omega), u32_of_lt (sq_lt hh3)]
  unfold fillY
  obtain ⟨s, e, hs⟩ := forLT_inv (lo := -g.half) (hi := g.half) (by omega)
    (s := EdgeState.mk 0 (u32 (u32 (g.size + 1) * u32 (g.size + 1))) [])
    (body := fun s y => forLE (-g.half) g.half s fun s x =>
        forLE (-g.half) g.half s fun s z => edgeBodyY g f sv values mat s x y z)
    (fun y s => EInv g ((g.size + 1) * (g.size + 1)) y (-g.half) (-g.half) (rowYR g f sv .Y y) s)
    ⟨by simp [lz], by simp [u0], by simp [rowYR_nil]⟩
    (by
      intro y s hy1 hy2 hs
      obtain ⟨s', e', hs'⟩ := forLE_inv (lo := -g.half) (hi := g.half) (by omega) (s := s)
        (body := fun s x => forLE (-g.half) g.half s fun s z => edgeBodyY g f sv values mat s x y z)
        (fun x s => EInv g ((g.size + 1) * (g.size + 1)) y x (-g.half) (rowYR g f sv .Y y ++ rowXR g f sv .Y y x) s)
        (by refine ⟨hs.i1, hs.i2, ?_⟩; simp [rowXR_nil, hs.edges])
        (by
          intro x s hx1 hx2 hs
          obtain ⟨s', e', hs'⟩ := forLE_inv (lo := -g.half) (hi := g.half) (by omega) (s := s)
            (body := fun s z => edgeBodyY g f sv values mat s x y z)
            (fun z s => EInv g ((g.size + 1) * (g.size + 1)) y x z
              (rowYR g f sv .Y y ++ rowXR g f sv .Y y x ++ rowZR g f sv .Y y x z) s)
            (by refine ⟨hs.i1, hs.i2, ?_⟩; simp [rowZR_nil, hs.edges])
            (by
              intro z s hz1 hz2 hs
              have hp : InCube g.half ⟨x, y, z⟩ := ⟨⟨hx1, hx2⟩, ⟨hy1, by simp only; omega⟩, hz1, hz2⟩
              have hq : InCube g.half (edgeEnd .Y ⟨x, y, z⟩) := by
                unfold InCube edgeEnd shift; simp only; omega
              have j1 := vidx_of_lz hp hs.i1
              have j2 := vidx_edgeEnd .Y hp hq
              simp only at j2
              refine ⟨_, edgeBodyY_step hg h hp hq j1 (by rw [j2, hs.i2, j1]), ?_, ?_, ?_⟩
              · have := hs.i1; simp only [lz] at this ⊢; push_cast; rw [this]; ring
              · simp only [hs.i2]; ring
              · simp only [hs.edges, rowZR_succ g f sv .Y y x hz1, List.append_assoc])
          refine ⟨s', e', ?_, hs'.i2, ?_⟩
          · rw [hs'.i1]; unfold lz; rw [hh]; ring
          · rw [hs'.edges, rowXR_succ g f sv .Y y hx1]; simp [hiZ])
      refine ⟨s', e', ?_, hs'.i2, ?_⟩
      · rw [hs'.i1]; unfold lz; rw [hh]; ring
      · rw [hs'.edges, rowYR_succ g f sv .Y hy1]; simp [hiX])
  exact ⟨s, e, by rw [hs.edges]; rfl⟩

theorem fillZ_spec {g : Grid K} (hg : g.WF) {f : ScalarField K} {sv : ZeroFinder K} {values mat}
    (h : Sampled g f values mat) :
    ∃ s, fillZ g f sv values mat = some s ∧ s.edges = allEdgesR g f sv .Z := by
  have hh := hg.half_eq
  have hh2 := hg.two_le
  have hh3 := hg.le
  have hb := big_bound hg
  unfold fillZ
  obtain ⟨s, e, hs⟩ := forLE_inv (lo := -g.half) (hi := g.half) (by omega) (s := EdgeState.mk 0 1 [])
    (body := fun s y => forLE (-g.half) g.half s fun s x => do
      let s ← forLT (-g.half) g.half s fun s z => edgeBodyZ g f sv values mat s x y z
      some { s with idx1 := u32 (s.idx1 + 1), idx2 := u32 (s.idx2 + 1) })
    (fun y s => EInv g 1 y (-g.half) (-g.half) (rowYR g f sv .Z y) s)
    ⟨by simp [lz], by simp, by simp [rowYR_nil]⟩
    (by
      intro y s hy1 hy2 hs
      obtain ⟨s', e', hs'⟩ := forLE_inv (lo := -g.half) (hi := g.half) (by omega) (s := s)
        (body := fun s x => do
          let s ← forLT (-g.half) g.half s fun s z => edgeBodyZ g f sv values mat s x y z
          some { s with idx1 := u32 (s.idx1 + 1), idx2 := u32 (s.idx2 + 1) })
        (fun x s => EInv g 1 y x (-g.half) (rowYR g f sv .Z y ++ rowXR g f sv .Z y x) s)
        (by refine ⟨hs.i1, hs.i2, ?_⟩; simp [rowXR_nil, hs.edges])
        (by
          intro x s hx1 hx2 hs
          obtain ⟨s', e', hs'⟩ := forLT_inv (lo := -g.half) (hi := g.half) (by omega) (s := s)
            (body := fun s z => edgeBodyZ g f sv values mat s x y z)
            (fun z s => EInv g 1 y x z (rowYR g f sv .Z y ++ rowXR g f sv .Z y x ++ rowZR g f sv .Z y x z) s)
            (by refine ⟨hs.i1, hs.i2, ?_⟩; simp [rowZR_nil, hs.edges])
            (by
              intro z s hz1 hz2 hs
              have hp : InCube g.half ⟨x, y, z⟩ := ⟨⟨hx1, hx2⟩, ⟨hy1, hy2⟩, hz1, by simp only; omega⟩
              have hq : InCube g.half (edgeEnd .Z ⟨x, y, z⟩) := by
                unfold InCube edgeEnd shift; simp only; omega
              have j1 := vidx_of_lz hp hs.i1
              have j2 := vidx_edgeEnd .Z hp hq
              simp only at j2
              refine ⟨_, edgeBodyZ_step hg h hp hq j1 (by rw [j2, hs.i2, j1]), ?_, ?_, ?_⟩
              · have := hs.i1; simp only [lz] at this ⊢; push_cast; rw [this]; ring
              · simp only [hs.i2]
              · simp only [hs.edges, rowZR_succ g f sv .Z y x hz1, List.append_assoc])
          rw [e']
          have hp : InCube g.half ⟨x, y, g.half⟩ := ⟨⟨hx1, hx2⟩, ⟨hy1, hy2⟩, by simp only; omega, by simp⟩
          have j1 := vidx_of_lz hp hs'.i1
          have j2 := Grid.vidx_lt hg hp
          have hi2 := hs'.i2
          have u1 : u32 (s'.idx1 + 1) = s'.idx1 + 1 := u32_of_lt (by omega)
          have u2 : u32 (s'.idx2 + 1) = s'.idx2 + 1 := u32_of_lt (by
            have := sq_lt hh3
            generalize (g.size + 1) * (g.size + 1) * (g.size + 1) = A at *
            generalize (g.size + 1) * (g.size + 1) = B at *
            omega)
          refine ⟨_, rfl, ?_, ?_, ?_⟩
          · simp only [u1]; push_cast; rw [hs'.i1]; unfold lz; rw [hh]; ring
          · simp only [u1, u2]; omega
          · simp only [hs'.edges]; rw [rowXR_succ g f sv .Z y hx1]; simp [hiZ])
      refine ⟨s', e', ?_, hs'.i2, ?_⟩
      · rw [hs'.i1]; unfold lz; rw [hh]; ring
      · rw [hs'.edges, rowYR_succ g f sv .Z hy1]; simp [hiX])
  exact ⟨s, e, by rw [hs.edges]; rfl⟩

/-- What `fill` produces. -/
theorem fillR_spec {g : Grid K} (hg : g.WF) (f : ScalarField K) (sv : ZeroFinder K) :
    ∃ g', g.fill f sv = some g' ∧ g'.size = g.size ∧ g'.half = g.half ∧ g'.globalPos = g.globalPos ∧
      g'.step = g.step ∧ g'.mat.length = g.dataSize ∧
      (∀ p, InCube g.half p → g'.mat[g.vidx p]? = some (some (sampleMat g f p))) ∧
      (∀ D, g'.edges D = allEdgesR g f sv D) := by
  obtain ⟨s, e, _, hm, hv, hmat⟩ := fillValues_spec hg f
  have hS : Sampled g f s.values s.mat := ⟨hv, hmat⟩
  obtain ⟨sx, ex, hx⟩ := fillX_spec (sv := sv) hg hS
  obtain ⟨sy, ey, hy⟩ := fillY_spec (sv := sv) hg hS
  obtain ⟨sz, ez, hz⟩ := fillZ_spec (sv := sv) hg hS
  refine ⟨{ g with mat := s.mat, edgeX := sx.edges, edgeY := sy.edges, edgeZ := sz.edges }, ?_, rfl, rfl, rfl, rfl,
    hm, hmat, ?_⟩
  · unfold Grid.fill
    rw [e]
    simp [ex, ey, ez]
  · intro D
    cases D
    · exact hx
    · exact hy
    · exact hz

/-! ### Exact arithmetic -/

section Exact
variable {K : Type} [Field K] [LinearOrder K] [IsStrictOrderedRing K]

theorem stepped_eq (a step : K) (n : Nat) : stepped a step n = a + n * step := by
  induction n with
  | zero => simp [stepped]
  | succ n ih => rw [stepped, ih]; push_cast; ring

theorem spos_eq (g : Grid K) {p : IVec3} (hp : -g.half ≤ p.x ∧ -g.half ≤ p.y ∧ -g.half ≤ p.z) : g.spos p = g.gpos p := by
  have key (o : K) {v : Int} (hv : -g.half ≤ v) :
      stepped (((-g.half : Int) : K) * g.step + o) g.step (v + g.half).toNat = (v : K) * g.step + o := by
    rw [stepped_eq]
    have : (((v + g.half).toNat : Int) : K) = ((v + g.half : Int) : K) := by rw [Int.toNat_of_nonneg (by omega)]
    rw [Int.cast_natCast] at this
    rw [this]
    push_cast
    ring
  unfold Grid.spos samplePos worldPos Grid.gpos Grid.localToGlobal
  ext
  · exact key _ hp.1
  · exact key _ hp.2.1
  · exact key _ hp.2.2

theorem fieldMat_eq (g : Grid K) (f : ScalarField K) (p : IVec3) : fieldMat g f p = vertexMaterial f (g.gpos p) := by
  rfl

theorem gpos_edgeEnd_get (g : Grid K) (D : Axis) (p : IVec3) :
    (g.gpos (edgeEnd D p)).get D = (g.gpos p).get D + g.step := by
  cases D <;> simp [Grid.gpos, Grid.localToGlobal, edgeEnd, shift, Vec3.get] <;> ring

/-- Contribution of one lattice edge to the edge storage. -/
noncomputable def edgeOut (g : Grid K) (f : ScalarField K) (solver : ZeroFinder K) (D : Axis) (p : IVec3) :
    List (GridEdge K) :=
  open Classical in
  if Crosses f g.gpos D p then [edgeRecord f solver g.gpos g.step D p] else []

/-- The complete expected edge list along `D`. -/
noncomputable def allEdges (g : Grid K) (f : ScalarField K) (sv : ZeroFinder K) (D : Axis) : List (GridEdge K) :=
  (irange (-g.half) (hiY g D)).flatMap fun y => (irange (-g.half) (hiX g D)).flatMap fun x =>
    (irange (-g.half) (hiZ g D)).flatMap fun z => edgeOut g f sv D ⟨x, y, z⟩

theorem edgeOut_eq (g : Grid K) (f : ScalarField K) (sv : ZeroFinder K) (D : Axis) {p : IVec3}
    (hp : -g.half ≤ p.x ∧ -g.half ≤ p.y ∧ -g.half ≤ p.z) : edgeOutR g f sv D p = edgeOut g f sv D p := by
  have e1 := spos_eq g hp
  have e2 : g.spos (edgeEnd D p) = g.gpos (edgeEnd D p) := by
    apply spos_eq
    cases D <;> simp only [edgeEnd, shift] <;> omega
  have e3 := gpos_edgeEnd_get g D p
  have c : sampledCoord f sv g.spos g.gpos g.step D p = crossingCoord f sv g.gpos D p := by
    unfold sampledCoord crossingCoord
    rw [e1, e2]
    cases D <;> simp only [Vec3.get] at e3 ⊢ <;> rw [e3]
  unfold edgeOutR edgeOut Crosses sampledRecord edgeRecord
  rw [e1, e2, c]

theorem flatMap_agree {α β : Type} {l : List α} {u v : α → List β} (h : ∀ a ∈ l, u a = v a) : l.flatMap u = l.flatMap v := by
  rw [List.flatMap_def, List.flatMap_def, List.map_congr_left h]

theorem allEdges_eq (g : Grid K) (f : ScalarField K) (sv : ZeroFinder K) (D : Axis) :
    allEdgesR g f sv D = allEdges g f sv D := by
  unfold allEdgesR allEdges rowYR rowXR rowZR
  refine flatMap_agree fun y hy => flatMap_agree fun x hx => flatMap_agree fun z hz => ?_
  rw [mem_irange] at hx hy hz
  exact edgeOut_eq g f sv D ⟨hx.1, hy.1, hz.1⟩

/-- What `fill` produces in exact arithmetic. -/
theorem fill_spec {g : Grid K} (hg : g.WF) (f : ScalarField K) (sv : ZeroFinder K) :
    ∃ g', g.fill f sv = some g' ∧ g'.size = g.size ∧ g'.half = g.half ∧ g'.globalPos = g.globalPos ∧
      g'.step = g.step ∧ g'.mat.length = g.dataSize ∧
      (∀ p, InCube g.half p → g'.mat[g.vidx p]? = some (some (fieldMat g f p))) ∧
      (∀ D, g'.edges D = allEdges g f sv D) := by
  obtain ⟨g', e, h1, h2, h3, h4, h5, h6, h7⟩ := fillR_spec hg f sv
  refine ⟨g', e, h1, h2, h3, h4, h5, fun p hp => ?_, fun D => (h7 D).trans (allEdges_eq g f sv D)⟩
  rw [h6 p hp]
  unfold sampleMat fieldMat
  rw [spos_eq g ⟨hp.1.1, hp.2.1.1, hp.2.2.1⟩]

end Exact

theorem fill_wf {g g' : Grid K} (hg : g.WF) {f : ScalarField K} {sv : ZeroFinder K} (h : g.fill f sv = some g') :
    g'.WF := by
  obtain ⟨g'', e, h1, h2, _, _, h5, _⟩ := fillR_spec hg f sv
  rw [h] at e
  cases e
  exact ⟨by rw [h1]; exact hg.two_le, by rw [h1]; exact hg.le, by rw [h1, h2]; exact hg.half_eq,
    by rw [h5, h1]; rfl⟩

end Isomesh
