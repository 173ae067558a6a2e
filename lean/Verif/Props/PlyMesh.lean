import Verif.Props.Mesh

/-! C99: loading a mesh from a PLY file. -/

namespace Isomesh

section
variable {K : Type} [Field K] [LinearOrder K] [IsStrictOrderedRing K]

/-! ### Specification -/

/-- The buffers of the file hold these points and these faces. -/
structure PlyFile.Holds (f : PlyFile K) (pts : List (Vec3 K)) (faces : List (Nat × Nat × Nat)) : Prop where
  vcount : f.vcount = pts.length
  vdata : f.vdata = pts.flatMap fun p => [p.x, p.y, p.z]
  fcount : f.fcount = faces.length
  fdata : f.fdata = faces.flatMap fun t => [t.1, t.2.1, t.2.2]

/-- `i` is a corner of the face. -/
def IsCorner (i : Nat) (t : Nat × Nat × Nat) : Prop := i = t.1 ∨ i = t.2.1 ∨ i = t.2.2

instance (i : Nat) (t : Nat × Nat × Nat) : Decidable (IsCorner i t) := by unfold IsCorner; infer_instance

/-- The three corners of the face are different points of the list. -/
def TrueFace (t : Nat × Nat × Nat) : Prop := t.1 ≠ t.2.1 ∧ t.2.1 ≠ t.2.2 ∧ t.1 ≠ t.2.2

instance (t : Nat × Nat × Nat) : Decidable (TrueFace t) := by unfold TrueFace; infer_instance

/-- Sum of the area vectors of the faces around the `i`-th point. -/
def areaSum (pts : List (Vec3 K)) (faces : List (Nat × Nat × Nat)) (i : Nat) : Vec3 K :=
  ((faces.filter fun t => IsCorner i t).map fun t =>
    areaVector (pts.getD t.1 ⟨0, 0, 0⟩, pts.getD t.2.1 ⟨0, 0, 0⟩, pts.getD t.2.2 ⟨0, 0, 0⟩)).foldl Vec3.add ⟨0, 0, 0⟩

/-! ### Proof -/

theorem vadd_zero (v : Vec3 K) : v.add ⟨0, 0, 0⟩ = v := by ext <;> simp [Vec3.add]

theorem load_area (p1 p2 p3 : Vec3 K) : (p2.sub p3).cross (p2.sub p1) = areaVector (p1, p2, p3) := by
  unfold areaVector Vec3.sub Vec3.cross
  ext <;> dsimp only <;> ring

theorem area_degenerate {p1 p2 p3 : Vec3 K} (h : p1 = p2 ∨ p2 = p3 ∨ p1 = p3) : areaVector (p1, p2, p3) = ⟨0, 0, 0⟩ := by
  unfold areaVector Vec3.sub Vec3.cross
  rcases h with rfl | rfl | rfl <;> ext <;> dsimp only <;> ring

theorem write_eq {α : Type} {l : List α} {i : Nat} (v : α) (h : i < l.length) : write l i v = some (l.set i v) := by simp [write, h]

/-- Adding a vector at three places. -/
theorem write3 {ns : List (Vec3 K)} {a b c : Nat} {n : Vec3 K} (ha : a < ns.length) (hb : b < ns.length) (hc : c < ns.length)
    (hn : (a = b ∨ b = c ∨ a = c) → n = ⟨0, 0, 0⟩) :
    ∃ ns', (do
      let ns ← write ns a ((ns.getD a ⟨0, 0, 0⟩).add n)
      let ns ← write ns b ((ns.getD b ⟨0, 0, 0⟩).add n)
      write ns c ((ns.getD c ⟨0, 0, 0⟩).add n)) = some ns' ∧ ns'.length = ns.length ∧
      ∀ i < ns.length, ns'.getD i ⟨0, 0, 0⟩ = if IsCorner i (a, b, c) then (ns.getD i ⟨0, 0, 0⟩).add n else ns.getD i ⟨0, 0, 0⟩ := by
  rw [write_eq _ ha, Option.bind_eq_bind, Option.bind_some, write_eq _ (by simpa using hb), Option.bind_some,
    write_eq _ (by simpa using hc)]
  refine ⟨_, rfl, by simp, fun i hi => ?_⟩
  have hset : ∀ (l : List (Vec3 K)) (j : Nat) (v : Vec3 K), j < l.length → ∀ i, (l.set j v).getD i ⟨0, 0, 0⟩ = if i = j then v else l.getD i ⟨0, 0, 0⟩ := by
    intro l j v hj i
    rw [List.getD_eq_getElem?_getD, List.getD_eq_getElem?_getD, List.getElem?_set]
    by_cases h : j = i
    · subst h; simp [hj]
    · rw [if_neg h, if_neg (Ne.symm h)]
  have h1 : ∀ (v w x : Vec3 K) i, (((ns.set a v).set b w).set c x).getD i ⟨0, 0, 0⟩ = if i = c then x else if i = b then w else if i = a then v else ns.getD i ⟨0, 0, 0⟩ := by
    intro v w x i
    rw [hset _ c _ (by simpa using hc), hset _ b _ (by simpa using hb), hset _ a _ ha]
  have h2 : ∀ (v w : Vec3 K) i, ((ns.set a v).set b w).getD i ⟨0, 0, 0⟩ = if i = b then w else if i = a then v else ns.getD i ⟨0, 0, 0⟩ := by
    intro v w i
    rw [hset _ b _ (by simpa using hb), hset _ a _ ha]
  have h3 : ∀ (v : Vec3 K) i, (ns.set a v).getD i ⟨0, 0, 0⟩ = if i = a then v else ns.getD i ⟨0, 0, 0⟩ := fun v i => hset _ a _ ha i
  rw [h1]
  simp only [h2, h3]
  by_cases hd : a = b ∨ b = c ∨ a = c
  · rw [hn hd]
    simp only [vadd_zero, ite_self]
    split_ifs <;> simp_all
  · push Not at hd
    obtain ⟨h1, h2, h3⟩ := hd
    simp only [IsCorner]
    by_cases e1 : i = a
    · subst e1; simp [h1, h3]
    · by_cases e2 : i = b
      · subst e2; simp [h2, e1]
      · by_cases e3 : i = c
        · subst e3; simp [e2, e1]
        · simp [e1, e2, e3]

theorem areaSum_snoc (pts : List (Vec3 K)) (faces : List (Nat × Nat × Nat)) (t : Nat × Nat × Nat) (i : Nat) :
    areaSum pts (faces ++ [t]) i = if IsCorner i t then (areaSum pts faces i).add
      (areaVector (pts.getD t.1 ⟨0, 0, 0⟩, pts.getD t.2.1 ⟨0, 0, 0⟩, pts.getD t.2.2 ⟨0, 0, 0⟩)) else areaSum pts faces i := by
  unfold areaSum
  rw [List.filter_append]
  by_cases h : IsCorner i t
  · simp [h]
  · simp [h]

/-- C99 (loading): every file whose faces refer to existing points is loaded.  The mesh has the points of the file in the same order, moved by one
common map; the normal of a point is the normalised sum of the area vectors of the faces around it, taken after the change of winding asked for
by the flag; and the triangles are the faces with three different corners, in the same order, with this winding. -/
theorem C99_load (fltMax fltMin : K) (normalize : Vec3 K → Vec3 K) {f : PlyFile K} {pts : List (Vec3 K)} {faces : List (Nat × Nat × Nat)}
    (h : f.Holds pts faces) (hv : ∀ t ∈ faces, t.1 < pts.length ∧ t.2.1 < pts.length ∧ t.2.2 < pts.length) (hsz : pts.length ≤ 4294967296)
    (reverse : Bool) :
    ∃ (m : Mesh K) (c : Vec3 K) (k : K), normalization fltMax fltMin f = some (c, k) ∧ ply2mesh fltMax fltMin normalize f reverse = some m ∧
      let pts' := pts.map fun p => (⟨(p.x - c.x) / k, (p.y - c.y) / k, (p.z - c.z) / k⟩ : Vec3 K)
      let faces' := if reverse then faces.map swapLast else faces
      m.vertices.length = pts.length ∧
      (∀ (i : Nat) (p : Vec3 K), pts'[i]? = some p → m.vertices[i]? = some ⟨p, normalize (areaSum pts' faces' i), .Solid⟩) ∧
      m.indices = (faces'.filter fun t => TrueFace t).flatMap fun t => [t.1, t.2.1, t.2.2] := by
  have hcomp : f.Complete := by
    unfold PlyFile.Complete
    rw [h.vdata, h.vcount, length_flatMap3]
  obtain ⟨lo, hi, hnorm, -⟩ := normalization_spec fltMax fltMin f hcomp
  generalize hc : (⟨(hi .X + lo .X) / 2, (hi .Y + lo .Y) / 2, (hi .Z + lo .Z) / 2⟩ : Vec3 K) = c at hnorm
  generalize hk : max (hi .X - lo .X) (max (hi .Y - lo .Y) (hi .Z - lo .Z)) / 32 = k at hnorm
  have hld : PlyData.load fltMax fltMin f = some ⟨true, f, c, k⟩ := by
    unfold PlyData.load; rw [hnorm]; rfl
  have hD : (if reverse = true then (⟨true, f, c, k⟩ : PlyData K).setWindingOrder false else ⟨true, f, c, k⟩) =
      ⟨!reverse, f, c, k⟩ := by cases reverse <;> rfl
  set d : PlyData K := ⟨!reverse, f, c, k⟩ with hd
  set pts' := pts.map fun p => (⟨(p.x - c.x) / k, (p.y - c.y) / k, (p.z - c.z) / k⟩ : Vec3 K) with hpts
  set faces' := if reverse then faces.map swapLast else faces with hfaces
  have hlen' : pts'.length = pts.length := by rw [hpts, List.length_map]
  have hflen : faces'.length = faces.length := by rw [hfaces]; split <;> simp
  have hvert : ∀ i, i < pts.length → d.vertex i = some (pts'.getD i ⟨0, 0, 0⟩) := by
    intro i hi
    have e := getElem?_flatMap3 (fun p : Vec3 K => p.x) (fun p => p.y) (fun p => p.z) pts i
    rw [← h.vdata, List.getElem?_eq_getElem hi] at e
    have : pts'.getD i ⟨0, 0, 0⟩ = ⟨(pts[i].x - c.x) / k, (pts[i].y - c.y) / k, (pts[i].z - c.z) / k⟩ := by
      rw [List.getD_eq_getElem?_getD, hpts, List.getElem?_map, List.getElem?_eq_getElem hi]; rfl
    rw [this]
    simp only [Option.map_some] at e
    simp [PlyData.vertex, hd, e.1, e.2.1, e.2.2]
  have htri : ∀ i (hi : i < faces'.length), d.triangleIndexs i = some faces'[i] := by
    intro i hi
    have hi' : i < faces.length := by omega
    have e := getElem?_flatMap3 (fun t : Nat × Nat × Nat => t.1) (fun t => t.2.1) (fun t => t.2.2) faces i
    rw [← h.fdata, List.getElem?_eq_getElem hi'] at e
    simp only [Option.map_some] at e
    cases reverse <;> simp [PlyData.triangleIndexs, hd, e.1, e.2.1, e.2.2, swapLast, hfaces]
  have hv' : ∀ t ∈ faces', t.1 < pts.length ∧ t.2.1 < pts.length ∧ t.2.2 < pts.length := by
    intro t ht
    rw [hfaces] at ht
    split at ht
    · obtain ⟨s, hs, rfl⟩ := List.mem_map.1 ht
      have := hv s hs
      exact ⟨this.1, this.2.2, this.2.1⟩
    · exact hv t ht
  -- normals
  have hnormals : ∀ n ≤ faces'.length, ∃ ns, (List.range n).foldlM (plyNormalStep d) (List.replicate pts.length ⟨0, 0, 0⟩) = some ns ∧
      ns.length = pts.length ∧ ∀ i < pts.length, ns.getD i ⟨0, 0, 0⟩ = areaSum pts' (faces'.take n) i := by
    intro n
    induction n with
    | zero =>
      intro _
      refine ⟨_, rfl, by simp, fun i hi => ?_⟩
      rw [List.getD_eq_getElem?_getD]
      simp [hi, areaSum]
    | succ n ih =>
      intro hn
      obtain ⟨ns, hns, hlen, hsum⟩ := ih (by omega)
      obtain ⟨l1, l2, l3⟩ := hv' faces'[n] (List.getElem_mem _)
      have htake : faces'.take (n + 1) = faces'.take n ++ [faces'[n]] := by
        rw [List.take_add_one, List.getElem?_eq_getElem (by omega)]; rfl
      rw [List.range_succ, List.foldlM_append, hns, htake]
      have ht := htri n (by omega)
      generalize faces'[n] = t at *
      obtain ⟨ns', w1, w2, w3⟩ := write3 (ns := ns) (a := t.1) (b := t.2.1) (c := t.2.2)
        (n := areaVector (pts'.getD t.1 ⟨0, 0, 0⟩, pts'.getD t.2.1 ⟨0, 0, 0⟩, pts'.getD t.2.2 ⟨0, 0, 0⟩)) (by omega) (by omega) (by omega)
        (fun hdeg => area_degenerate (by rcases hdeg with e | e | e <;> simp [e]))
      refine ⟨ns', ?_, by omega, fun i hi => ?_⟩
      · simp only [Option.bind_eq_bind, Option.bind_some, List.foldlM_cons, List.foldlM_nil, plyNormalStep, ht, hvert _ l1, hvert _ l2, hvert _ l3,
          load_area] at w1 ⊢
        rw [w1]; rfl
      · rw [w3 i (by omega), areaSum_snoc, hsum i hi]
  obtain ⟨ns, hns, hnlen, hnsum⟩ := hnormals faces'.length le_rfl
  rw [List.take_length] at hnsum
  -- vertices
  have hverts : ∀ n ≤ pts.length, ∃ m' : Mesh K, (List.range n).foldlM (fun (m : Mesh K) i => do
      let v ← d.vertex i
      let n ← (ns.map normalize)[i]?
      let r ← m.addVertex v n .Solid
      some r.1) Mesh.new = some m' ∧ m'.vertices.length = n ∧ m'.indices = [] ∧
      ∀ i < n, m'.vertices[i]? = some ⟨pts'.getD i ⟨0, 0, 0⟩, normalize (areaSum pts' faces' i), .Solid⟩ := by
    intro n
    induction n with
    | zero => intro _; exact ⟨_, rfl, rfl, rfl, fun i hi => absurd hi (by omega)⟩
    | succ n ih =>
      intro hn
      obtain ⟨m', hm', hl, hix, hvs⟩ := ih (by omega)
      have hng : (ns.map normalize)[n]? = some (normalize (areaSum pts' faces' n)) := by
        rw [← hnsum n (by omega), List.getElem?_map, List.getD_eq_getElem?_getD, List.getElem?_eq_getElem (by omega)]; rfl
      have hle : m'.vertices.length ≤ 4294967295 := by omega
      refine ⟨⟨m'.vertices ++ [⟨pts'.getD n ⟨0, 0, 0⟩, normalize (areaSum pts' faces' n), .Solid⟩], m'.indices⟩, ?_, by simp [hl], hix, ?_⟩
      · rw [List.range_succ, List.foldlM_append, hm']
        simp only [Option.bind_eq_bind, Option.bind_some, List.foldlM_cons, List.foldlM_nil, hvert n (by omega), hng,
          Mesh.addVertex, if_pos hle]
        rfl
      · intro i hi
        by_cases hin : i < n
        · rw [List.getElem?_append_left (by omega)]; exact hvs i hin
        · have : i = n := by omega
          subst this
          dsimp only
          rw [List.getElem?_append_right (by omega), hl]
          simp
  obtain ⟨m1, hm1, hl1, hix1, hvs1⟩ := hverts pts.length le_rfl
  -- triangles
  have htris : ∀ n ≤ faces'.length, (List.range n).foldlM (fun (m : Mesh K) i => do
      let t ← d.triangleIndexs i
      m.addTriangle t.1 t.2.1 t.2.2) m1 = some ⟨m1.vertices, ((faces'.take n).filter fun t => TrueFace t).flatMap fun t => [t.1, t.2.1, t.2.2]⟩ := by
    intro n
    induction n with
    | zero =>
      intro _
      show some m1 = some ⟨m1.vertices, []⟩
      rw [← hix1]
    | succ n ih =>
      intro hn
      have htake : faces'.take (n + 1) = faces'.take n ++ [faces'[n]] := by
        rw [List.take_add_one, List.getElem?_eq_getElem (by omega)]; rfl
      have ht := htri n (by omega)
      have l := hv' faces'[n] (List.getElem_mem _)
      rw [htake, List.range_succ, List.foldlM_append, ih (by omega)]
      generalize faces'[n] = t at *
      rw [← hl1] at l
      simp only [Option.bind_eq_bind, Option.bind_some, List.foldlM_cons, List.foldlM_nil, ht, Mesh.addTriangle, if_pos l]
      by_cases htf : TrueFace t
      · rw [if_neg (by unfold TrueFace at htf; tauto)]
        simp [htf]
      · rw [if_pos (by unfold TrueFace at htf; tauto)]
        simp [htf]
  have hfin := htris faces'.length le_rfl
  rw [List.take_length] at hfin
  refine ⟨⟨m1.vertices, (faces'.filter fun t => TrueFace t).flatMap fun t => [t.1, t.2.1, t.2.2]⟩, c, k, hnorm, ?_, hl1, ?_, rfl⟩
  · unfold ply2mesh
    rw [hld]
    simp only [Option.bind_eq_bind, Option.bind_some, hD]
    rw [show d.trianglesCount = faces'.length from h.fcount.trans hflen.symm, show d.verticesCount = pts.length from h.vcount, hns]
    simp only [Option.bind_some]
    simp only [Option.bind_eq_bind] at hm1 hfin
    rw [hm1]
    simp only [Option.bind_some]
    exact hfin
  · intro i p hp
    have hi : i < pts.length := by rw [← hlen']; exact (List.getElem?_eq_some_iff.1 hp).1
    have := hvs1 i hi
    rw [List.getD_eq_getElem?_getD, hp] at this
    exact this

end

/-- Non-vacuity: a file with four points, two faces and a degenerate face between them. -/
def demoLoadPly : PlyFile ℚ :=
  ⟨4, [0, 0, 0, 32, 0, 0, 0, 16, 0, 0, 0, 16], 3, [0, 1, 2, 1, 1, 3, 0, 3, 1]⟩

theorem demoLoadPly_holds : demoLoadPly.Holds [⟨0, 0, 0⟩, ⟨32, 0, 0⟩, ⟨0, 16, 0⟩, ⟨0, 0, 16⟩] [(0, 1, 2), (1, 1, 3), (0, 3, 1)] :=
  ⟨rfl, rfl, rfl, rfl⟩

example : ∃ m, ply2mesh (1000 : ℚ) (-1000) id demoLoadPly false = some m ∧ m.vertices.length = 4 ∧ m.indices = [0, 1, 2, 0, 3, 1] := by
  obtain ⟨m, c, k, -, h, h1, -, h3⟩ := C99_load (1000 : ℚ) (-1000) id demoLoadPly_holds (by decide) (by decide) false
  exact ⟨m, h, h1, h3.trans (by decide)⟩

example : areaSum [⟨0, 0, 0⟩, ⟨32, 0, 0⟩, ⟨0, 16, 0⟩, (⟨0, 0, 16⟩ : Vec3 ℚ)] [(0, 1, 2), (1, 1, 3), (0, 3, 1)] 1 = ⟨0, 512, 512⟩ := by
  norm_num [areaSum, IsCorner, areaVector, Vec3.add, Vec3.sub, Vec3.cross]

end Isomesh
