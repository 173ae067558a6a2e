import Verif.Proofs.Grid
import Verif.Proofs.Loops
import Verif.Spec.Fill

/-! The loops of `UniformGrid::fill`. -/

namespace Isomesh
open Spec

variable {K : Type} [Add K] [Sub K] [Mul K] [Div K] [Zero K] [IntCast K] [LE K] [LT K] [DecidableLE K] [DecidableLT K]

/-- Global position of a lattice point. -/
def Grid.gpos (g : Grid K) (p : IVec3) : Vec3 K := g.localToGlobal ⟨(p.x : K), (p.y : K), (p.z : K)⟩

/-- Material decided by the field. -/
def fieldMat (g : Grid K) (f : ScalarField K) (p : IVec3) : Material :=
  if f.value (g.gpos p) > 0 then .Empty else f.material (g.gpos p) (f.value (g.gpos p))

/-- Position at which the field is sampled. -/
def Grid.spos (g : Grid K) (p : IVec3) : Vec3 K := samplePos g.globalPos g.step g.half p

/-- Material decided by the field at the sampled position. -/
def sampleMat (g : Grid K) (f : ScalarField K) (p : IVec3) : Material :=
  if f.value (g.spos p) > 0 then .Empty else f.material (g.spos p) (f.value (g.spos p))

theorem stepped_next (a step : K) {h v : Int} (hv : -h ≤ v) :
    stepped a step (v + 1 + h).toNat = stepped a step (v + h).toNat + step := by
  rw [show (v + 1 + h).toNat = (v + h).toNat + 1 by omega]
  rfl

theorem stepped_start (a step : K) (h : Int) : stepped a step (-h + h).toNat = a := by
  rw [show (-h + h).toNat = 0 by omega]
  rfl

/-- Loop position as an index (over the integers, also for the one-past-the-end positions). -/
def lz (g : Grid K) (y x z : Int) : Int :=
  ((y + g.half) * (g.size + 1) + (x + g.half)) * (g.size + 1) + (z + g.half)

omit [Add K] [Sub K] [Mul K] [Div K] [Zero K] [IntCast K] [LE K] [LT K] [DecidableLE K] [DecidableLT K] in
theorem vidx_of_lz {g : Grid K} {x y z : Int} (hp : InCube g.half ⟨x, y, z⟩) {i : Nat}
    (h : (i : Int) = lz g y x z) : i = g.vidx ⟨x, y, z⟩ := by
  have := Grid.vidx_int (g := g) hp
  unfold lz at h
  simp only at this
  rw [← h] at this
  exact_mod_cast this.symm

theorem write_of_lt {α : Type} {l : List α} {i : Nat} (h : i < l.length) (v : α) :
    write l i v = some (l.set i v) := by unfold write; rw [if_pos h]

/-- Invariant of the sampling loop at loop position `(y, x, z)`. -/
structure FillInv (g : Grid K) (f : ScalarField K) (y x z : Int) (s : FillState K) : Prop where
  idx : (s.idx : Int) = lz g y x z
  vlen : s.values.length = g.dataSize
  mlen : s.mat.length = g.dataSize
  vals : ∀ p, InCube g.half p → g.vidx p < s.idx → s.values[g.vidx p]? = some (f.value (g.spos p))
  mats : ∀ p, InCube g.half p → g.vidx p < s.idx → s.mat[g.vidx p]? = some (some (sampleMat g f p))

theorem fillBody_step {g : Grid K} (hg : g.WF) {f : ScalarField K} {y x z : Int} (hp : InCube g.half ⟨x, y, z⟩)
    {s : FillState K} (hs : FillInv g f y x z s) (hpos : s.pos = g.spos ⟨x, y, z⟩) :
    ∃ s', fillBody f g.step s = some s' ∧ FillInv g f y x (z + 1) s' ∧ s'.pos = g.spos ⟨x, y, z + 1⟩ := by
  have hi := vidx_of_lz hp hs.idx
  have hlt := Grid.vidx_lt' hg hp
  have hc := cube_lt hg.le
  have hd : g.dataSize = (g.size + 1) * (g.size + 1) * (g.size + 1) := dataSizeOf_eq hg.le
  have hu : u32 (s.idx + 1) = s.idx + 1 := u32_of_lt (by omega)
  refine ⟨FillState.mk (u32 (s.idx + 1)) { s.pos with z := s.pos.z + g.step }
    (s.values.set s.idx (f.value s.pos))
    (s.mat.set s.idx (some (if f.value s.pos > 0 then Material.Empty else f.material s.pos (f.value s.pos)))),
    ?_, ?_, ?_⟩
  · unfold fillBody
    dsimp only
    rw [write_of_lt (l := s.values) (by rw [hs.vlen]; omega), write_of_lt (l := s.mat) (by rw [hs.mlen]; omega)]
    rfl
  · constructor
    · simp only [hu]
      push_cast
      rw [hs.idx]; unfold lz; ring
    · simp [hs.vlen]
    · simp [hs.mlen]
    · intro q hq hlt'
      simp only [hu] at hlt' ⊢
      by_cases e : s.idx = g.vidx q
      · have : q = ⟨x, y, z⟩ := Grid.vidx_inj hg hq hp (by omega)
        rw [← e, List.getElem?_set_self (by rw [hs.vlen]; omega), this, hpos]
      · rw [List.getElem?_set_ne e]
        exact hs.vals q hq (by omega)
    · intro q hq hlt'
      simp only [hu] at hlt' ⊢
      by_cases e : s.idx = g.vidx q
      · have : q = ⟨x, y, z⟩ := Grid.vidx_inj hg hq hp (by omega)
        rw [← e, List.getElem?_set_self (by rw [hs.mlen]; omega), this, hpos]
        rfl
      · rw [List.getElem?_set_ne e]
        exact hs.mats q hq (by omega)
  · simp only [hpos]
    unfold Grid.spos samplePos
    ext
    · rfl
    · rfl
    · exact (stepped_next _ _ hp.2.2.1).symm

theorem fillValues_spec {g : Grid K} (hg : g.WF) (f : ScalarField K) :
    ∃ s, fillValues g f = some s ∧ s.values.length = g.dataSize ∧ s.mat.length = g.dataSize ∧
      (∀ p, InCube g.half p → s.values[g.vidx p]? = some (f.value (g.spos p))) ∧
      (∀ p, InCube g.half p → s.mat[g.vidx p]? = some (some (sampleMat g f p))) := by
  have hh := hg.half_eq
  have h2 := hg.two_le
  have hhalf : 0 ≤ g.half := by omega
  have hd : g.dataSize = (g.size + 1) * (g.size + 1) * (g.size + 1) := dataSizeOf_eq hg.le
  unfold fillValues
  set lowest := g.localToGlobal (⟨((-g.half : Int) : K), ((-g.half : Int) : K), ((-g.half : Int) : K)⟩ : Vec3 K)
    with hlow
  obtain ⟨s, e, hs, -⟩ := forLE_inv (lo := -g.half) (hi := g.half) (by omega)
    (s := ({ idx := 0, pos := lowest, values := List.replicate g.dataSize 0, mat := g.mat } : FillState K))
    (body := fun s _y => do
      let s := { s with pos := { s.pos with x := lowest.x } }
      let s ← forLE (-g.half) g.half s fun s _x => do
        let s := { s with pos := { s.pos with z := lowest.z } }
        let s ← forLE (-g.half) g.half s fun s _z => fillBody f g.step s
        some { s with pos := { s.pos with x := s.pos.x + g.step } }
      some { s with pos := { s.pos with y := s.pos.y + g.step } })
    (fun y s => FillInv g f y (-g.half) (-g.half) s ∧ s.pos.y = (g.spos ⟨0, y, 0⟩).y)
    (by
      refine ⟨⟨?_, by simp, ?_, ?_, ?_⟩, ?_⟩
      · simp [lz]
      · exact hg.mat_len
      · intro p _ h; simp at h
      · intro p _ h; simp at h
      · exact (stepped_start _ _ _).symm)
    (by
      rintro y s hy1 hy2 ⟨hs, hpy⟩
      dsimp only
      obtain ⟨s', e', hs', hpos'⟩ := forLE_inv (lo := -g.half) (hi := g.half) (by omega)
        (s := ({ s with pos := { s.pos with x := lowest.x } } : FillState K))
        (body := fun s _x => do
          let s := { s with pos := { s.pos with z := lowest.z } }
          let s ← forLE (-g.half) g.half s fun s _z => fillBody f g.step s
          some { s with pos := { s.pos with x := s.pos.x + g.step } })
        (fun x s => FillInv g f y x (-g.half) s ∧
          (s.pos.y = (g.spos ⟨0, y, 0⟩).y ∧ s.pos.x = (g.spos ⟨x, 0, 0⟩).x))
        (by
          refine ⟨⟨hs.idx, hs.vlen, hs.mlen, hs.vals, hs.mats⟩, hpy, ?_⟩
          exact (stepped_start _ _ _).symm)
        (by
          rintro x s hx1 hx2 ⟨hs, hpy, hpx⟩
          dsimp only
          obtain ⟨s', e', hs', hpos'⟩ := forLE_inv (lo := -g.half) (hi := g.half) (by omega)
            (s := ({ s with pos := { s.pos with z := lowest.z } } : FillState K))
            (body := fun s _z => fillBody f g.step s)
            (fun z s => FillInv g f y x z s ∧ s.pos = g.spos ⟨x, y, z⟩)
            (by
              refine ⟨⟨hs.idx, hs.vlen, hs.mlen, hs.vals, hs.mats⟩, ?_⟩
              ext
              · exact hpx
              · exact hpy
              · exact (stepped_start _ _ _).symm)
            (by
              rintro z s hz1 hz2 ⟨hs, hpos⟩
              exact fillBody_step hg ⟨⟨hx1, hx2⟩, ⟨hy1, hy2⟩, hz1, hz2⟩ hs hpos)
          rw [e']
          refine ⟨_, rfl, ⟨?_, hs'.vlen, hs'.mlen, hs'.vals, hs'.mats⟩, ?_, ?_⟩
          · simp only [hs'.idx]; unfold lz; rw [hh]; ring
          · simp only [hpos']; rfl
          · simp only [hpos']; exact (stepped_next _ _ hx1).symm)
      rw [e']
      refine ⟨_, rfl, ⟨?_, hs'.vlen, hs'.mlen, hs'.vals, hs'.mats⟩, ?_⟩
      · simp only [hs'.idx]; unfold lz; rw [hh]; ring
      · simp only [hpos'.1]; exact (stepped_next _ _ hy1).symm)
  have hidx : s.idx = g.dataSize := by
    have := hs.idx
    unfold lz at this
    rw [hd]
    zify
    rw [this, hh]; ring
  refine ⟨s, e, hs.vlen, hs.mlen, ?_, ?_⟩
  · intro p hp
    exact hs.vals p hp (by rw [hidx]; exact Grid.vidx_lt' hg hp)
  · intro p hp
    exact hs.mats p hp (by rw [hidx]; exact Grid.vidx_lt' hg hp)

end Isomesh
