import Verif.Proofs.FillCrash
import Verif.Spec.FillCrash
import Verif.Props.MarchingCubes

/-! C82: exceptions during `UniformGrid::fill`. -/

set_option linter.unusedSectionVars false

namespace Isomesh
open Spec

variable {K : Type} [Add K] [Sub K] [Mul K] [Div K] [Zero K] [IntCast K] [LinearOrder K]

theorem fillE_left {g : Grid K} (hg : g.WF) (f : ScalarField K) (sv : ZeroFinder K) (noValues : Bool) (fails : Axis → IVec3 → Bool) :
    ∃ G r, g.fill f sv = some G ∧ g.fillE f sv noValues fails = some r ∧ LeftBy g G noValues fails r := by
  obtain ⟨s, e, _, hm, hv, hmat⟩ := fillValues_spec hg f
  have hS : Sampled g f s.values s.mat := ⟨hv, hmat⟩
  obtain ⟨sx, ex, -⟩ := fillX_spec (sv := sv) hg hS
  obtain ⟨sy, ey, -⟩ := fillY_spec (sv := sv) hg hS
  obtain ⟨sz, ez, -⟩ := fillZ_spec (sv := sv) hg hS
  have hfill : g.fill f sv = some { g with mat := s.mat, edgeX := sx.edges, edgeY := sy.edges, edgeZ := sz.edges } := by
    unfold Grid.fill
    rw [e]
    simp [ex, ey, ez]
  refine ⟨{ g with mat := s.mat, edgeX := sx.edges, edgeY := sy.edges, edgeZ := sz.edges }, ?_⟩
  cases noValues with
  | true => exact ⟨.thrown g, hfill, by simp [Grid.fillE], .early rfl⟩
  | false =>
    unfold Grid.fillE
    rw [e]
    dsimp only
    rcases follows_cases (fillXE_follows ex (fails .X)) with ⟨nx, hx⟩ | ⟨⟨ed, hed, hf⟩, t, ht, hl⟩
    · rcases follows_cases (fillYE_follows ey (fails .Y)) with ⟨ny, hy⟩ | ⟨⟨ed, hed, hf⟩, t, ht, hl⟩
      · rcases follows_cases (fillZE_follows ez (fails .Z)) with ⟨nz, hz⟩ | ⟨⟨ed, hed, hf⟩, t, ht, hl⟩
        · refine ⟨_, hfill, by rw [hx, hy, hz]; rfl, .returned rfl fun D => ?_⟩
          cases D
          exacts [nx, ny, nz]
        · refine ⟨_, hfill, by rw [hx, hy, ht]; rfl, ?_⟩
          rw [hl]
          exact LeftBy.inZ ed rfl nx ny hed hf
      · refine ⟨_, hfill, by rw [hx, ht]; rfl, ?_⟩
        rw [hl]
        exact LeftBy.inY ed rfl nx hed hf
    · refine ⟨_, hfill, by rw [ht]; rfl, ?_⟩
      rw [hl]
      exact LeftBy.inX ed rfl hed hf

theorem fillE_kept {g : Grid K} (hg : g.WF) {f : ScalarField K} {sv : ZeroFinder K} {noValues : Bool} {fails : Axis → IVec3 → Bool}
    {r : Flow (Grid K)} (h : g.fillE f sv noValues fails = some r) {g' : Grid K} (hr : r = .next g' ∨ r = .thrown g') :
    g'.WF ∧ g'.size = g.size ∧ g'.half = g.half ∧ g'.globalPos = g.globalPos ∧ g'.step = g.step := by
  obtain ⟨G, r', hG, hr', hl⟩ := fillE_left hg f sv noValues fails
  rw [h] at hr'; cases hr'
  have hw := fill_wf hg hG
  obtain ⟨G', hG', s1, s2, s3, s4, -⟩ := fillR_spec hg f sv
  rw [hG] at hG'; cases hG'
  have hlen : G.mat.length = dataSizeOf g.size := by rw [hw.mat_len, s1]
  rcases hl with _ | _ | _ | _ | _ <;> rcases hr with e | e <;> cases e
  · exact ⟨hg, rfl, rfl, rfl, rfl⟩
  · exact ⟨⟨hg.two_le, hg.le, hg.half_eq, hlen⟩, rfl, rfl, rfl, rfl⟩
  · exact ⟨⟨hg.two_le, hg.le, hg.half_eq, hlen⟩, rfl, rfl, rfl, rfl⟩
  · exact ⟨⟨hg.two_le, hg.le, hg.half_eq, hlen⟩, rfl, rfl, rfl, rfl⟩
  · exact ⟨hw, s1, s2, s3, s4⟩

/-- Every history begins with a fresh grid of the same size and place. -/
theorem reachableE_fresh {g : Grid K} (h : g.ReachableE) :
    g.WF ∧ ∃ g0 : Grid K, Grid.mk' g.size g.globalPos g.step = .ok g0 ∧ g0.size = g.size ∧ g0.half = g.half ∧ g0.globalPos = g.globalPos ∧
      g0.step = g.step := by
  induction h with
  | mk h =>
    have hw := (Grid.Reachable.mk h).wf
    have hc := h
    unfold Grid.mk' at hc
    split at hc
    · cases hc
    · cases hc
      exact ⟨hw, _, h, rfl, rfl, rfl, rfl⟩
  | returned _ hf ih =>
    obtain ⟨hw, g0, h0, i1, i2, i3, i4⟩ := ih
    obtain ⟨w, j1, j2, j3, j4⟩ := fillE_kept hw hf (Or.inl rfl)
    exact ⟨w, g0, by rw [j1, j3, j4]; exact h0, by rw [j1, i1], by rw [j2, i2], by rw [j3, i3], by rw [j4, i4]⟩
  | thrown _ hf ih =>
    obtain ⟨hw, g0, h0, i1, i2, i3, i4⟩ := ih
    obtain ⟨w, j1, j2, j3, j4⟩ := fillE_kept hw hf (Or.inr rfl)
    exact ⟨w, g0, by rw [j1, j3, j4]; exact h0, by rw [j1, i1], by rw [j2, i2], by rw [j3, i3], by rw [j4, i4]⟩

/-- `fill` overwrites everything but size and place. -/
theorem fill_fresh {g h G : Grid K} (hg : g.WF) (hh : h.WF) (e1 : g.size = h.size) (e2 : g.half = h.half) (e3 : g.globalPos = h.globalPos)
    (e4 : g.step = h.step) {f : ScalarField K} {sv : ZeroFinder K} (hG : g.fill f sv = some G) : h.fill f sv = some G := by
  obtain ⟨gs, gh, gm, gx, gy, gz, gp, gst⟩ := g
  obtain ⟨hs, hhf, hm, hx, hy, hz, hp, hst⟩ := h
  dsimp only at e1 e2 e3 e4
  subst e1 e2 e3 e4
  obtain ⟨G', hG', s1, s2, s3, s4, s5, s6, s7⟩ := fillR_spec hg f sv
  obtain ⟨H, hH, t1, t2, t3, t4, t5, t6, t7⟩ := fillR_spec hh f sv
  rw [hG] at hG'; cases hG'
  rw [hH]
  have hD : ∀ D, H.edges D = G.edges D := by
    intro D
    rw [s7, t7]
    with_unfolding_all rfl
  have hmat : H.mat = G.mat := by
    apply List.ext_getElem?
    intro i
    by_cases hi : i < G.mat.length
    · rw [s5] at hi
      obtain ⟨p, hp, rfl⟩ := Grid.exists_vidx hg hi
      exact (t6 p hp).trans (s6 p hp).symm
    · have hl : H.mat.length = G.mat.length := t5.trans s5.symm
      rw [List.getElem?_eq_none (by omega), List.getElem?_eq_none (by omega)]
  obtain ⟨a1, a2, a3, a4, a5, a6, a7, a8⟩ := G
  obtain ⟨b1, b2, b3, b4, b5, b6, b7, b8⟩ := H
  have hX := hD .X
  have hY := hD .Y
  have hZ := hD .Z
  simp only [Grid.edges] at hX hY hZ
  simp only at s1 s2 s3 s4 t1 t2 t3 t4 hmat
  subst s1 s2 s3 s4 hmat hX hY hZ
  simp only [Option.some.injEq, Grid.mk.injEq, true_and]
  exact ⟨t1, t2, t3, t4⟩

/-- C82 (safety): after any history `fill` never reads or writes out of bounds, whatever throws. -/
theorem C82_safe {g : Grid K} (h : g.ReachableE) (f : ScalarField K) (sv : ZeroFinder K) (noValues : Bool) (fails : Axis → IVec3 → Bool) :
    ∃ r, g.fillE f sv noValues fails = some r := by
  obtain ⟨G, r, -, hr, -⟩ := fillE_left (reachableE_fresh h).1 f sv noValues fails
  exact ⟨r, hr⟩

/-- C82 (state after an exception): without exceptions the call gives the grid `G` of C06 and C07; otherwise nothing has changed (no memory for
the values), or the materials are already those of `G`, the edge storages before the one being filled are those of `G`, this one has the records of
`G` before the edge of the exception, and the later ones are the old ones. -/
theorem C82_left {g : Grid K} (h : g.ReachableE) (f : ScalarField K) (sv : ZeroFinder K) (noValues : Bool) (fails : Axis → IVec3 → Bool)
    {r : Flow (Grid K)} (hr : g.fillE f sv noValues fails = some r) : ∃ G, g.fill f sv = some G ∧ LeftBy g G noValues fails r := by
  obtain ⟨G, r', hG, hr', hl⟩ := fillE_left (reachableE_fresh h).1 f sv noValues fails
  rw [hr] at hr'; cases hr'
  exact ⟨G, hG, hl⟩

/-- C82 (recovery): after any history, with any number of failed calls, a call that returns gives exactly the grid that it gives on a new
grid of the same size and place.  So every statement about a grid that was filled without failures (`Grid.Reachable`) also holds here. -/
theorem C82_recover {g g' : Grid K} (h : g.ReachableE) {f : ScalarField K} {sv : ZeroFinder K} {noValues : Bool} {fails : Axis → IVec3 → Bool}
    (hf : g.fillE f sv noValues fails = some (.next g')) :
    ∃ g0 : Grid K, Grid.mk' g.size g.globalPos g.step = .ok g0 ∧ g0.fill f sv = some g' ∧ g'.Reachable := by
  obtain ⟨hw, g0, h0, e1, e2, e3, e4⟩ := reachableE_fresh h
  obtain ⟨G, hG, hl⟩ := C82_left h f sv noValues fails hf
  cases hl
  have := fill_fresh hw (Grid.Reachable.mk h0).wf e1.symm e2.symm e3.symm e4.symm hG
  exact ⟨g0, h0, this, .fill (.mk h0) this⟩

/-- A body that has only the point in the middle. -/
def pointField : ScalarField Int := ⟨fun q => if q.x = 0 ∧ q.y = 0 ∧ q.z = 0 then -1 else 1, fun _ => ⟨1, 0, 0⟩, fun _ _ => .Stone⟩

/-- The complement. -/
def exceptPointField : ScalarField Int := ⟨fun q => if q.x = 0 ∧ q.y = 0 ∧ q.z = 0 then 1 else -1, fun _ => ⟨1, 0, 0⟩, fun _ _ => .Stone⟩

/-- A zero finder that returns the first end. -/
def firstFinder : ZeroFinder Int := ⟨fun x _ _ _ _ _ _ => x, fun _ y _ _ _ _ _ => y, fun _ _ z _ _ _ _ => z⟩

/-- Whether the first cell of marching cubes violates the assertion. -/
def firstCellFails (g : Grid Int) : Bool :=
  match collectCellEdges id g .X Mesh.new with
  | none => false
  | some sx =>
    match collectCellEdges id g .Y sx.mesh with
    | none => false
    | some sy =>
      match collectCellEdges id g .Z sy.mesh with
      | none => false
      | some sz =>
        let its := [sx.l2, sx.l1, sx.l3, sx.l0, sy.l2, sy.l3, sy.l1, sy.l0, sz.l2, sz.l3, sz.l1, sz.l0]
        decide (∀ l ∈ its, List.Pairwise (fun a b => decide (a.cellIndex ≤ b.cellIndex) = true) l) && decide (minUnprocessed its ≠ kBadIndex) &&
          (processCell g (minUnprocessed its) (its.map fun it => (takeEntry (minUnprocessed its) it).1) sz.mesh).isNone

theorem mc_firstCell {g : Grid Int} (h : firstCellFails g = true) : marchingCubes id g = none := by
  unfold firstCellFails at h
  unfold marchingCubes
  split at h
  · cases h
  rename_i sx hx
  split at h
  · cases h
  rename_i sy hy
  split at h
  · cases h
  rename_i sz hz
  rw [hx, Option.bind_eq_bind, Option.bind_some, hy, Option.bind_eq_bind, Option.bind_some, hz, Option.bind_some]
  simp only [Bool.and_eq_true, decide_eq_true_eq, Option.isNone_iff_eq_none] at h
  dsimp only
  generalize [sx.l2, sx.l1, sx.l3, sx.l0, sy.l2, sy.l3, sy.l1, sy.l0, sz.l2, sz.l3, sz.l1, sz.l0] = its at h ⊢
  have hm : its.map sortEntries = its := by
    have hid : ∀ l ∈ its, sortEntries l = id l := by
      intro l hl
      unfold sortEntries
      exact List.mergeSort_of_pairwise (by simpa using h.1.1 l hl)
    rw [List.map_congr_left hid, List.map_id]
  rw [hm, mcLoop]
  simp only [h.1.2, h.2, if_false, Option.bind_eq_bind, Option.bind_none]

/-- The two calls, and marching cubes after each. -/
def staleRun : Bool :=
  match Grid.mk' 2 (⟨0, 0, 0⟩ : Vec3 Int) 1 with
  | .error _ => false
  | .ok g0 =>
    match g0.fill pointField firstFinder with
    | none => false
    | some g1 =>
      match g1.fillE exceptPointField firstFinder false (fun _ _ => true) with
      | some (.thrown g2) => firstCellFails g2
      | _ => false

/-- C82 (after a failed call the grid need not be consistent): the grid of 2^3 cells around the origin is filled with a body that has only the
middle point, and then with its complement, where the first call of the zero finder throws.  The first grid can be meshed; on the grid left by the
second call marching cubes violates its assertion about the edges of a cell. -/
theorem C82_stale : ∃ g0 g1 g2 : Grid Int, Grid.mk' 2 ⟨0, 0, 0⟩ 1 = .ok g0 ∧ g0.fill pointField firstFinder = some g1 ∧
    (marchingCubes id g1).isSome ∧ g1.fillE exceptPointField firstFinder false (fun _ _ => true) = some (.thrown g2) ∧ marchingCubes id g2 = none := by
  have h : staleRun = true := by decide +kernel
  unfold staleRun at h
  split at h
  · cases h
  · rename_i g0 h0
    split at h
    · cases h
    · rename_i g1 h1
      split at h
      · rename_i g2 h2
        have hF : Filled g1 := C07_filled (.mk h0) (f := pointField) (by intro q _; show Material.Stone ≠ Material.Empty; decide) h1
        exact ⟨g0, g1, g2, h0, h1, by rw [mc_result hF]; rfl, h2, mc_firstCell h⟩
      · cases h

/-- Non-vacuity: the grid left by the failed call of `C82_stale` belongs to a history with a failure, and filling it again gives a consistent grid
that can be meshed. -/
example : ∃ g2 g3 : Grid Int, g2.ReachableE ∧ marchingCubes id g2 = none ∧
    g2.fillE exceptPointField firstFinder false (fun _ _ => false) = some (.next g3) ∧ Filled g3 ∧ (marchingCubes id g3).isSome := by
  obtain ⟨g0, g1, g2, h0, h1, -, h2, h3⟩ := C82_stale
  have r0 : g0.ReachableE := .mk h0
  obtain ⟨r, hr⟩ := C82_safe r0 pointField firstFinder false (fun _ _ => false)
  obtain ⟨G, hG, hl⟩ := C82_left r0 _ _ _ _ hr
  rw [h1] at hG; cases hG
  have r1 : g1.ReachableE := by
    rcases hl with h | ⟨_, _, _, h⟩ | ⟨_, _, _, _, h⟩ | ⟨_, _, _, _, _, h⟩ | _
    · cases h
    · cases h
    · cases h
    · cases h
    · exact .returned r0 hr
  have r2 : g2.ReachableE := .thrown r1 h2
  obtain ⟨r, hr⟩ := C82_safe r2 exceptPointField firstFinder false (fun _ _ => false)
  obtain ⟨G, hG, hl⟩ := C82_left r2 _ _ _ _ hr
  rcases hl with h | ⟨_, _, _, h⟩ | ⟨_, _, _, _, h⟩ | ⟨_, _, _, _, _, h⟩ | _
  · cases h
  · cases h
  · cases h
  · cases h
  obtain ⟨g', h0', hf, hre⟩ := C82_recover r2 hr
  have hF : Filled G := C07_filled (.mk h0') (f := exceptPointField) (by intro q _; show Material.Stone ≠ Material.Empty; decide) hf
  refine ⟨g2, G, r2, h3, hr, hF, ?_⟩
  rw [mc_result hF]
  rfl

end Isomesh
