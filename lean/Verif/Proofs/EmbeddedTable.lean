import Verif.Props.Tables

/-! For every two marching cubes triangles of a cell, a plane between them (found by a search outside of Lean; that it separates them for all
positions of the vertices is checked in `Proofs/EmbeddedCell`). -/

namespace Isomesh

/-- A plane, given by the vertices of a cell: with a fixed normal and offset (twice); with a fixed normal, through the vertex on edge `p`;
through the vertices on edges `p` and `q` and parallel to `w`. -/
inductive CellPlane
  | flat (n : IVec3) (c : Int)
  | through (n : IVec3) (p : Nat)
  | along (w : IVec3) (p q : Nat)

def cellPlanes_0 : List (List (Bool × CellPlane)) := [
  [],
  [],
  [],
  [(false, .along ⟨-1, -1, -1⟩ 0 5)],
  [],
  [(false, .along ⟨1, 1, 1⟩ 4 9)],
  [(false, .flat ⟨2, 2, -2⟩ (0))],
  [(false, .along ⟨1, 1, 1⟩ 5 9), (true, .through ⟨-2, 0, -2⟩ 5), (false, .through ⟨2, 0, 2⟩ 5)],
  [],
  [(false, .flat ⟨-2, -2, -2⟩ (-4))],
  [(false, .along ⟨1, 1, 0⟩ 7 8)],
  [(false, .along ⟨-1, -1, -1⟩ 0 7), (true, .through ⟨-2, 0, 2⟩ 4), (false, .through ⟨2, 0, -2⟩ 4)],
  [(false, .along ⟨-1, 0, 0⟩ 1 6)],
  [(false, .along ⟨1, 0, 0⟩ 1 4), (true, .through ⟨2, 0, -2⟩ 4), (false, .through ⟨-2, 0, 2⟩ 4)],
  [(false, .along ⟨1, 1, -1⟩ 6 8), (true, .through ⟨2, 0, 2⟩ 5), (false, .through ⟨-2, 0, -2⟩ 5)],
  [(false, .through ⟨2, 0, -2⟩ 4)]]

def cellPlanes_1 : List (List (Bool × CellPlane)) := [
  [],
  [(false, .along ⟨-1, -1, -1⟩ 2 8)],
  [(false, .flat ⟨2, 2, -2⟩ (0))],
  [(false, .along ⟨1, 1, 1⟩ 2 5), (true, .through ⟨0, -2, -2⟩ 1), (false, .through ⟨0, 2, 2⟩ 1)],
  [(false, .flat ⟨2, -2, 2⟩ (0))],
  [(false, .along ⟨-1, -1, -1⟩ 2 9), (true, .through ⟨-2, -2, 0⟩ 9), (false, .through ⟨2, 2, 0⟩ 9)],
  [(false, .flat ⟨2, -2, 2⟩ (0)), (false, .flat ⟨2, 2, -2⟩ (0)), (false, .flat ⟨2, 2, -2⟩ (0))],
  [(false, .along ⟨1, 1, 1⟩ 2 5), (true, .through ⟨2, 0, 2⟩ 5), (false, .flat ⟨-2, 1, -1⟩ (-2)), (false, .through ⟨-2, 0, -2⟩ 5), (false, .through ⟨-2, 0, -2⟩ 5), (false, .along ⟨-1, -1, -1⟩ 1 6)],
  [(false, .flat ⟨2, 0, 2⟩ (4))],
  [(false, .along ⟨1, 1, 1⟩ 2 8), (false, .flat ⟨-2, 0, -2⟩ (-4)), (false, .flat ⟨-2, 0, -2⟩ (-4))],
  [(false, .along ⟨1, 1, 0⟩ 7 8), (false, .flat ⟨2, -2, 2⟩ (0)), (false, .flat ⟨2, -2, 2⟩ (0))],
  [(false, .along ⟨1, 1, 0⟩ 5 9), (false, .through ⟨0, 0, 2⟩ 9), (false, .through ⟨2, 0, 2⟩ 5), (false, .along ⟨1, 1, 0⟩ 2 9), (false, .along ⟨-1, -1, -1⟩ 2 5), (false, .through ⟨2, -2, -2⟩ 2)],
  [(false, .along ⟨-1, 0, 0⟩ 1 6), (false, .flat ⟨2, 0, 2⟩ (4)), (false, .flat ⟨2, -2, 2⟩ (0))],
  [(false, .along ⟨-1, 1, 1⟩ 1 6), (false, .through ⟨2, 0, 0⟩ 1), (false, .through ⟨2, 0, 2⟩ 6), (false, .along ⟨-1, 1, 1⟩ 1 10), (false, .along ⟨-1, -1, -1⟩ 6 10), (false, .through ⟨-2, -2, 0⟩ 10)],
  [(false, .flat ⟨-2, 2, -2⟩ (0)), (true, .flat ⟨2, 0, 2⟩ (4)), (false, .flat ⟨-2, 2, -2⟩ (0)), (false, .through ⟨-2, 0, -2⟩ 5), (false, .along ⟨1, 0, 1⟩ 0 5), (false, .through ⟨2, 0, 2⟩ 5)],
  [(false, .along ⟨1, 1, 1⟩ 2 5), (true, .through ⟨2, 0, 2⟩ 5), (false, .through ⟨-2, 0, -2⟩ 5)]]

def cellPlanes_2 : List (List (Bool × CellPlane)) := [
  [],
  [(false, .flat ⟨-2, -2, -2⟩ (-4))],
  [(false, .along ⟨1, 1, -1⟩ 1 10)],
  [(false, .along ⟨1, 1, 0⟩ 0 10), (true, .through ⟨0, -2, 2⟩ 0), (false, .through ⟨0, 2, -2⟩ 0)],
  [(false, .flat ⟨2, 0, -2⟩ (0))],
  [(false, .along ⟨-1, -1, -1⟩ 4 9), (false, .flat ⟨2, 0, -2⟩ (0)), (false, .flat ⟨2, -2, -2⟩ (-4))],
  [(false, .along ⟨-1, -1, 1⟩ 1 10), (false, .flat ⟨-2, 0, 2⟩ (0)), (false, .flat ⟨-2, 0, 2⟩ (0))],
  [(false, .along ⟨1, 1, 1⟩ 3 9), (false, .through ⟨0, 0, 2⟩ 9), (false, .through ⟨2, -2, 2⟩ 3), (false, .along ⟨1, 1, 1⟩ 4 9), (false, .along ⟨1, 1, 1⟩ 3 4), (false, .through ⟨2, 0, -2⟩ 4)],
  [(false, .flat ⟨2, -2, 2⟩ (4))],
  [(false, .flat ⟨2, 2, 2⟩ (4)), (false, .flat ⟨2, -2, 2⟩ (4)), (false, .flat ⟨-2, -2, -2⟩ (-4))],
  [(false, .along ⟨-1, -1, 0⟩ 7 10), (true, .through ⟨-2, -2, 0⟩ 9), (false, .through ⟨2, 2, 0⟩ 9)],
  [(false, .along ⟨-1, -1, 0⟩ 7 10), (true, .through ⟨-2, -2, 0⟩ 9), (false, .flat ⟨1, 2, 1⟩ (4)), (false, .through ⟨2, 2, 0⟩ 9), (false, .through ⟨2, 2, 0⟩ 9), (false, .along ⟨1, 1, 0⟩ 4 9)],
  [(false, .along ⟨1, 0, 0⟩ 1 6), (false, .flat ⟨2, -2, 0⟩ (0)), (false, .flat ⟨2, -2, 0⟩ (0))],
  [(true, .flat ⟨2, -2, 0⟩ (0)), (false, .flat ⟨-2, 2, 2⟩ (4)), (true, .flat ⟨2, 0, -2⟩ (0)), (false, .along ⟨-1, -1, -1⟩ 7 8), (true, .through ⟨2, 0, -2⟩ 4), (false, .through ⟨-2, 0, 2⟩ 4)],
  [(false, .along ⟨-1, 1, -1⟩ 0 10), (false, .through ⟨-2, 0, 0⟩ 0), (false, .through ⟨-2, -2, -2⟩ 10), (false, .along ⟨-1, 1, -1⟩ 0 7), (false, .along ⟨1, 1, 0⟩ 7 10), (false, .through ⟨2, 0, -2⟩ 7)],
  [(false, .along ⟨-1, -1, 0⟩ 7 10), (true, .through ⟨2, 0, -2⟩ 4), (false, .through ⟨-2, 0, 2⟩ 4)]]

def cellPlanes_3 : List (List (Bool × CellPlane)) := [
  [(false, .along ⟨-1, 0, -1⟩ 3 4)],
  [(false, .along ⟨1, 1, 1⟩ 3 8), (true, .through ⟨0, 2, -2⟩ 0), (false, .through ⟨0, -2, 2⟩ 0)],
  [(false, .along ⟨1, 0, 0⟩ 1 4), (true, .through ⟨0, 2, 2⟩ 1), (false, .through ⟨0, -2, -2⟩ 1)],
  [(false, .through ⟨0, -2, -2⟩ 1)],
  [(false, .along ⟨1, 0, 1⟩ 3 4), (false, .flat ⟨-2, 0, 2⟩ (0)), (false, .flat ⟨-2, 2, 0⟩ (0))],
  [(false, .along ⟨-1, -1, -1⟩ 3 6), (false, .through ⟨0, 2, 0⟩ 6), (false, .through ⟨2, 2, -2⟩ 3), (false, .along ⟨1, 1, 1⟩ 6 8), (false, .along ⟨-1, -1, -1⟩ 3 8), (false, .through ⟨2, -2, 0⟩ 8)],
  [(false, .flat ⟨2, -2, -2⟩ (0)), (false, .flat ⟨2, -2, -2⟩ (0)), (true, .flat ⟨-2, 2, 0⟩ (0)), (false, .through ⟨0, -2, -2⟩ 1), (false, .along ⟨1, 1, -1⟩ 2 8), (false, .through ⟨0, 2, 2⟩ 1)],
  [(false, .along ⟨-1, -1, -1⟩ 2 9), (true, .through ⟨0, 2, 2⟩ 1), (false, .through ⟨0, -2, -2⟩ 1)],
  [(false, .along ⟨-1, 0, -1⟩ 3 4), (false, .flat ⟨-2, 2, -2⟩ (-4)), (false, .flat ⟨-2, 2, -2⟩ (-4))],
  [(true, .flat ⟨-2, 0, -2⟩ (-4)), (false, .flat ⟨2, -2, 2⟩ (4)), (false, .flat ⟨2, -2, 2⟩ (4)), (false, .along ⟨-1, 0, -1⟩ 0 5), (true, .through ⟨0, 2, -2⟩ 0), (false, .through ⟨0, -2, 2⟩ 0)],
  [(false, .along ⟨-1, 0, 1⟩ 4 9), (false, .through ⟨0, -2, 0⟩ 4), (false, .through ⟨-2, -2, -2⟩ 9), (false, .along ⟨1, 0, 0⟩ 3 4), (false, .along ⟨-1, -1, 0⟩ 3 9), (false, .through ⟨-2, 2, -2⟩ 3)],
  [(false, .along ⟨-1, -1, -1⟩ 0 7), (true, .through ⟨0, 2, -2⟩ 0), (false, .through ⟨0, -2, 2⟩ 0)],
  [(false, .along ⟨-1, 0, 0⟩ 2 5), (false, .flat ⟨-2, 2, 0⟩ (0)), (false, .flat ⟨-2, 1, -1⟩ (-2)), (false, .flat ⟨-2, 2, 0⟩ (0)), (false, .flat ⟨-2, 2, 0⟩ (0)), (false, .along ⟨1, 0, 0⟩ 1 6)],
  [(false, .along ⟨-1, 0, 0⟩ 7 8), (false, .along ⟨-1, -1, 0⟩ 6 8), (false, .through ⟨2, -2, 0⟩ 8), (false, .through ⟨2, -2, 0⟩ 8), (false, .through ⟨0, 0, 2⟩ 8), (false, .through ⟨2, -2, 0⟩ 8), (false, .through ⟨2, -2, 0⟩ 8), (false, .through ⟨0, 0, -2⟩ 8), (false, .along ⟨-1, -1, 0⟩ 2 8), (false, .along ⟨1, 0, 1⟩ 3 8)],
  [(false, .along ⟨1, 0, 0⟩ 2 8), (false, .along ⟨-1, -1, 0⟩ 3 8), (false, .through ⟨-2, 2, 0⟩ 8), (false, .through ⟨-2, 2, 0⟩ 8), (false, .through ⟨0, 0, -2⟩ 8), (false, .through ⟨-2, 2, 0⟩ 8), (false, .through ⟨-2, 2, 0⟩ 8), (false, .through ⟨0, 0, 2⟩ 8), (false, .along ⟨-1, -1, 0⟩ 7 8), (false, .along ⟨-1, 0, 0⟩ 6 8)],
  [(false, .along ⟨-1, -1, -1⟩ 2 7)]]

def cellPlanes_4 : List (List (Bool × CellPlane)) := [
  [],
  [(false, .flat ⟨2, 2, 2⟩ (4))],
  [(false, .flat ⟨2, 2, 0⟩ (4))],
  [(false, .along ⟨-1, -1, -1⟩ 0 5), (false, .flat ⟨-2, -2, 0⟩ (-4)), (false, .flat ⟨-2, -2, 0⟩ (-4))],
  [(false, .along ⟨1, 1, 0⟩ 0 11)],
  [(false, .along ⟨-1, -1, -1⟩ 4 11), (true, .through ⟨2, -2, 0⟩ 8), (false, .through ⟨-2, 2, 0⟩ 8)],
  [(false, .along ⟨1, 1, 0⟩ 0 11), (false, .flat ⟨2, 2, -2⟩ (0)), (false, .flat ⟨2, 2, -2⟩ (0))],
  [(false, .along ⟨1, 1, 1⟩ 1 11), (false, .through ⟨2, 0, 0⟩ 1), (false, .through ⟨2, -2, 2⟩ 11), (false, .along ⟨1, 1, 1⟩ 1 4), (false, .along ⟨1, 1, 1⟩ 4 11), (false, .through ⟨-2, -2, 2⟩ 4)],
  [(false, .flat ⟨-2, -2, 2⟩ (-4))],
  [(false, .flat ⟨-2, -2, -2⟩ (-4)), (false, .flat ⟨-2, -2, -2⟩ (-4)), (false, .flat ⟨-2, -2, 2⟩ (-4))],
  [(false, .along ⟨-1, -1, 0⟩ 7 8), (false, .flat ⟨-2, -2, 2⟩ (-4)), (false, .flat ⟨-2, -2, 2⟩ (-4))],
  [(true, .flat ⟨-2, -2, 0⟩ (-4)), (false, .flat ⟨2, 2, -2⟩ (4)), (false, .flat ⟨2, 2, -2⟩ (4)), (false, .along ⟨-1, -1, 0⟩ 4 9), (true, .through ⟨-2, 0, 2⟩ 4), (false, .through ⟨2, 0, -2⟩ 4)],
  [(false, .along ⟨-1, -1, 1⟩ 1 11), (true, .through ⟨0, -2, -2⟩ 1), (false, .through ⟨0, 2, 2⟩ 1)],
  [(false, .along ⟨-1, -1, 1⟩ 1 11), (true, .through ⟨-2, 2, 0⟩ 8), (false, .flat ⟨2, 0, 2⟩ (4)), (false, .through ⟨2, -2, 0⟩ 8), (false, .through ⟨2, -2, 0⟩ 8), (false, .along ⟨1, 1, -1⟩ 2 8)],
  [(false, .along ⟨1, 0, 0⟩ 0 11), (false, .through ⟨0, 0, -2⟩ 11), (false, .through ⟨2, 2, -2⟩ 0), (false, .along ⟨1, -1, 0⟩ 5 11), (false, .along ⟨1, 0, 1⟩ 0 5), (false, .through ⟨2, 2, 2⟩ 5)],
  [(false, .along ⟨-1, -1, -1⟩ 4 11), (true, .through ⟨-2, 0, 2⟩ 4), (false, .through ⟨2, 0, -2⟩ 4)]]

def cellPlanes_5 : List (List (Bool × CellPlane)) := [
  [(false, .along ⟨1, 1, -1⟩ 6 10)],
  [(false, .along ⟨1, 1, -1⟩ 6 8), (true, .through ⟨-2, 2, 0⟩ 8), (false, .through ⟨2, -2, 0⟩ 8)],
  [(false, .along ⟨-1, -1, 1⟩ 6 10), (false, .flat ⟨2, 2, 0⟩ (4)), (false, .flat ⟨2, 2, -2⟩ (0))],
  [(false, .along ⟨1, 0, 1⟩ 6 10), (false, .through ⟨0, 2, 0⟩ 6), (false, .through ⟨2, 2, 0⟩ 10), (false, .along ⟨-1, 0, -1⟩ 1 6), (false, .along ⟨1, 1, 1⟩ 1 10), (false, .through ⟨2, -2, -2⟩ 1)],
  [(false, .along ⟨1, 1, 0⟩ 0 10), (true, .through ⟨2, 2, 0⟩ 9), (false, .through ⟨-2, -2, 0⟩ 9)],
  [(false, .through ⟨2, -2, 0⟩ 8)],
  [(false, .flat ⟨-2, -2, 2⟩ (0)), (false, .flat ⟨-2, -2, 2⟩ (0)), (true, .flat ⟨2, 2, 0⟩ (4)), (false, .along ⟨-1, -1, 0⟩ 4 9), (true, .through ⟨2, 2, 0⟩ 9), (false, .through ⟨-2, -2, 0⟩ 9)],
  [(false, .along ⟨1, 1, 1⟩ 5 9), (true, .through ⟨2, 2, 0⟩ 9), (false, .through ⟨-2, -2, 0⟩ 9)],
  [(false, .along ⟨1, 1, -1⟩ 6 10), (false, .flat ⟨-2, 0, -2⟩ (-4)), (false, .flat ⟨-2, 2, -2⟩ (-4))],
  [(false, .flat ⟨2, -2, 2⟩ (4)), (false, .flat ⟨2, -2, 2⟩ (4)), (false, .flat ⟨2, -2, 2⟩ (4)), (false, .along ⟨1, 1, 1⟩ 0 11), (true, .through ⟨-2, 2, 0⟩ 8), (false, .through ⟨2, -2, 0⟩ 8)],
  [(false, .along ⟨-1, -1, 0⟩ 4 11), (false, .flat ⟨0, 2, -2⟩ (0)), (false, .flat ⟨1, 1, -2⟩ (0)), (false, .flat ⟨-1, 2, -1⟩ (0)), (false, .flat ⟨0, 2, -2⟩ (0)), (false, .along ⟨1, 1, 0⟩ 7 8)],
  [(false, .along ⟨-1, 0, -1⟩ 0 11), (false, .along ⟨1, 0, 1⟩ 0 10), (false, .through ⟨0, 2, -2⟩ 0), (false, .through ⟨0, 2, -2⟩ 0), (false, .through ⟨2, 0, 0⟩ 0), (false, .through ⟨0, 2, -2⟩ 0), (false, .through ⟨0, 2, -2⟩ 0), (false, .through ⟨-2, 0, 0⟩ 0), (false, .along ⟨1, 1, 0⟩ 0 5), (false, .along ⟨-1, -1, 0⟩ 0 7)],
  [(false, .along ⟨1, 1, -1⟩ 1 4), (false, .through ⟨0, -2, 0⟩ 4), (false, .through ⟨-2, -2, -2⟩ 1), (false, .along ⟨-1, -1, 1⟩ 4 11), (false, .along ⟨1, 1, -1⟩ 1 11), (false, .through ⟨-2, 2, -2⟩ 11)],
  [(false, .along ⟨-1, -1, 1⟩ 1 11), (true, .through ⟨-2, 2, 0⟩ 8), (false, .through ⟨2, -2, 0⟩ 8)],
  [(false, .along ⟨1, -1, 1⟩ 0 5), (false, .along ⟨-1, 1, -1⟩ 0 7), (false, .through ⟨0, -2, 2⟩ 0), (false, .through ⟨0, -2, 2⟩ 0), (false, .through ⟨-2, 0, 0⟩ 0), (false, .through ⟨0, -2, 2⟩ 0), (false, .through ⟨0, -2, 2⟩ 0), (false, .through ⟨2, 0, 0⟩ 0), (false, .along ⟨-1, -1, 1⟩ 0 11), (false, .along ⟨1, 1, -1⟩ 0 10)],
  [(false, .along ⟨1, 1, 1⟩ 5 11)]]

def cellPlanes_6 : List (List (Bool × CellPlane)) := [
  [(false, .flat ⟨2, 2, -2⟩ (4))],
  [(false, .flat ⟨-2, -2, -2⟩ (-4)), (false, .flat ⟨-2, -2, -2⟩ (-4)), (false, .flat ⟨2, 2, -2⟩ (4))],
  [(false, .along ⟨1, 1, -1⟩ 1 10), (false, .flat ⟨-2, -2, 0⟩ (-4)), (false, .flat ⟨-2, -2, 2⟩ (-4))],
  [(false, .flat ⟨2, 2, -2⟩ (4)), (false, .flat ⟨2, 2, -2⟩ (4)), (false, .flat ⟨2, 2, -2⟩ (4)), (false, .through ⟨0, 2, -2⟩ 0), (false, .along ⟨1, 1, 1⟩ 3 4), (false, .through ⟨0, -2, 2⟩ 0)],
  [(false, .along ⟨-1, -1, 0⟩ 0 11), (false, .flat ⟨2, 0, -2⟩ (0)), (false, .flat ⟨2, 0, -2⟩ (0))],
  [(false, .flat ⟨-2, 2, 2⟩ (4)), (false, .flat ⟨-2, 2, 2⟩ (4)), (true, .flat ⟨2, -2, 0⟩ (0)), (false, .along ⟨-1, -1, 1⟩ 2 8), (true, .through ⟨2, -2, 0⟩ 8), (false, .through ⟨-2, 2, 0⟩ 8)],
  [(false, .along ⟨1, 1, 0⟩ 3 8), (false, .flat ⟨-2, 0, 2⟩ (0)), (false, .flat ⟨-2, 0, 2⟩ (0)), (false, .flat ⟨-2, 0, 2⟩ (0)), (false, .flat ⟨-2, 0, 2⟩ (0)), (false, .along ⟨-1, -1, 0⟩ 0 11)],
  [(false, .along ⟨1, 1, 0⟩ 3 4), (false, .along ⟨-1, -1, 0⟩ 1 4), (false, .through ⟨-2, 0, 2⟩ 4), (false, .through ⟨-2, 0, 2⟩ 4), (false, .through ⟨0, 2, 0⟩ 4), (false, .through ⟨-2, 0, 2⟩ 4), (false, .through ⟨-2, 0, 2⟩ 4), (false, .through ⟨0, -2, 0⟩ 4), (false, .along ⟨1, 0, 1⟩ 4 9), (false, .along ⟨1, 0, 0⟩ 4 11)],
  [(false, .flat ⟨2, 2, -2⟩ (4)), (false, .flat ⟨2, 2, -2⟩ (4)), (false, .flat ⟨2, -2, 2⟩ (4))],
  [(false, .flat ⟨-2, 2, -2⟩ (-4)), (false, .flat ⟨2, 2, 2⟩ (4)), (false, .flat ⟨-2, -2, 2⟩ (-4)), (false, .flat ⟨2, 2, 2⟩ (4)), (false, .flat ⟨-2, -2, 2⟩ (-4)), (false, .flat ⟨-2, -2, -2⟩ (-4))],
  [(false, .flat ⟨2, 2, -2⟩ (4)), (false, .flat ⟨2, 2, -2⟩ (4)), (true, .flat ⟨-2, -2, 0⟩ (-4)), (false, .along ⟨1, 1, 0⟩ 3 9), (true, .through ⟨-2, -2, 0⟩ 9), (false, .through ⟨2, 2, 0⟩ 9)],
  [(false, .along ⟨1, 1, 0⟩ 3 9), (true, .through ⟨-2, -2, 0⟩ 9), (false, .flat ⟨2, 1, 1⟩ (4)), (false, .flat ⟨-2, -2, 2⟩ (-4)), (false, .through ⟨2, 2, 0⟩ 9), (false, .through ⟨2, 2, 0⟩ 9), (false, .flat ⟨-2, -2, 2⟩ (-4)), (false, .along ⟨-1, -1, 0⟩ 0 10), (false, .flat ⟨-2, -2, 0⟩ (-4)), (false, .flat ⟨-2, -2, 0⟩ (-4))],
  [(true, .flat ⟨2, 0, -2⟩ (0)), (false, .flat ⟨-2, 2, 2⟩ (4)), (false, .flat ⟨-2, 2, 2⟩ (4)), (false, .along ⟨1, 0, 0⟩ 2 7), (true, .through ⟨0, -2, -2⟩ 1), (false, .through ⟨0, 2, 2⟩ 1)],
  [(false, .along ⟨-1, -1, 1⟩ 2 8), (true, .through ⟨2, -2, 0⟩ 8), (false, .flat ⟨-2, 0, -2⟩ (-4)), (false, .flat ⟨2, -2, -2⟩ (-4)), (false, .through ⟨-2, 2, 0⟩ 8), (false, .through ⟨-2, 2, 0⟩ 8), (false, .flat ⟨2, -2, -2⟩ (-4)), (false, .along ⟨1, 1, -1⟩ 1 11), (false, .flat ⟨2, -2, 0⟩ (0)), (false, .flat ⟨2, -2, 0⟩ (0))],
  [(false, .along ⟨-1, 0, 0⟩ 2 7), (false, .along ⟨1, 0, 1⟩ 0 7), (false, .through ⟨2, 0, -2⟩ 7), (false, .through ⟨2, 0, -2⟩ 7), (false, .through ⟨0, 2, 0⟩ 7), (false, .through ⟨2, 0, -2⟩ 7), (false, .through ⟨2, 0, -2⟩ 7), (false, .through ⟨0, -2, 0⟩ 7), (false, .along ⟨1, 1, -1⟩ 7 8), (false, .along ⟨-1, -1, 1⟩ 7 10)],
  [(false, .along ⟨-1, -1, 0⟩ 7 10), (false, .through ⟨-2, 0, 2⟩ 7), (true, .through ⟨2, 0, -2⟩ 4), (false, .through ⟨-2, 0, 2⟩ 4), (false, .through ⟨-2, 0, 2⟩ 4), (false, .along ⟨1, 0, 0⟩ 2 7)]]

def cellPlanes_7 : List (List (Bool × CellPlane)) := [
  [(false, .along ⟨-1, 0, -1⟩ 3 6), (true, .through ⟨-2, 0, -2⟩ 5), (false, .through ⟨2, 0, 2⟩ 5)],
  [(false, .along ⟨1, 1, 1⟩ 3 8), (true, .through ⟨0, 2, -2⟩ 0), (false, .flat ⟨-2, 0, 2⟩ (0)), (false, .through ⟨0, -2, 2⟩ 0), (false, .through ⟨0, -2, 2⟩ 0), (false, .along ⟨-1, -1, -1⟩ 0 11)],
  [(false, .along ⟨1, -1, 1⟩ 4 11), (false, .through ⟨0, 0, -2⟩ 11), (false, .through ⟨2, 2, -2⟩ 4), (false, .along ⟨1, 0, 0⟩ 1 11), (false, .along ⟨-1, 0, 0⟩ 1 4), (false, .through ⟨2, 2, 2⟩ 1)],
  [(false, .along ⟨-1, 0, -1⟩ 3 6), (true, .through ⟨0, -2, 2⟩ 0), (false, .through ⟨0, 2, -2⟩ 0)],
  [(false, .along ⟨1, 1, -1⟩ 0 5), (false, .through ⟨-2, 0, 0⟩ 0), (false, .through ⟨-2, -2, -2⟩ 5), (false, .along ⟨1, 1, -1⟩ 0 11), (false, .along ⟨-1, -1, 1⟩ 5 11), (false, .through ⟨2, -2, 0⟩ 11)],
  [(false, .along ⟨1, 1, 1⟩ 3 8), (true, .through ⟨2, -2, 0⟩ 8), (false, .through ⟨-2, 2, 0⟩ 8)],
  [(false, .along ⟨1, 1, -1⟩ 4 9), (false, .along ⟨-1, -1, 1⟩ 4 11), (false, .through ⟨2, 0, -2⟩ 4), (false, .through ⟨2, 0, -2⟩ 4), (false, .through ⟨0, -2, 0⟩ 4), (false, .through ⟨2, 0, -2⟩ 4), (false, .through ⟨2, 0, -2⟩ 4), (false, .through ⟨0, 2, 0⟩ 4), (false, .along ⟨-1, 0, -1⟩ 3 4), (false, .along ⟨1, 0, 0⟩ 1 4)],
  [(false, .along ⟨-1, -1, -1⟩ 3 9)],
  [(false, .flat ⟨2, -2, 2⟩ (4)), (true, .flat ⟨-2, 0, -2⟩ (-4)), (false, .flat ⟨2, -2, 2⟩ (4)), (false, .through ⟨2, 0, 2⟩ 5), (false, .along ⟨-1, -1, 1⟩ 5 11), (false, .through ⟨-2, 0, -2⟩ 5)],
  [(false, .along ⟨-1, 0, -1⟩ 0 5), (true, .through ⟨0, 2, -2⟩ 0), (false, .flat ⟨-2, -2, 0⟩ (-4)), (false, .flat ⟨-2, 0, -2⟩ (-4)), (false, .through ⟨0, -2, 2⟩ 0), (false, .through ⟨0, -2, 2⟩ 0), (false, .flat ⟨-2, 2, -2⟩ (-4)), (false, .along ⟨1, 0, 1⟩ 3 6), (false, .flat ⟨-2, 2, -2⟩ (-4)), (false, .flat ⟨-2, 2, -2⟩ (-4))],
  [(false, .along ⟨-1, -1, 1⟩ 3 9), (false, .along ⟨1, 1, -1⟩ 3 8), (false, .through ⟨0, -2, 2⟩ 3), (false, .through ⟨0, -2, 2⟩ 3), (false, .through ⟨2, 0, 0⟩ 3), (false, .through ⟨0, -2, 2⟩ 3), (false, .through ⟨0, -2, 2⟩ 3), (false, .through ⟨-2, 0, 0⟩ 3), (false, .along ⟨1, -1, 1⟩ 3 4), (false, .along ⟨-1, 1, -1⟩ 3 6)],
  [(false, .along ⟨-1, -1, -1⟩ 0 7), (false, .through ⟨0, -2, 2⟩ 0), (true, .through ⟨0, 2, -2⟩ 0), (false, .through ⟨0, -2, 2⟩ 0), (false, .through ⟨0, -2, 2⟩ 0), (false, .along ⟨1, 1, 1⟩ 0 11)],
  [(false, .along ⟨1, 0, 0⟩ 5 11), (false, .along ⟨1, 1, 0⟩ 4 11), (false, .through ⟨-2, 2, 0⟩ 11), (false, .through ⟨-2, 2, 0⟩ 11), (false, .through ⟨0, 0, 2⟩ 11), (false, .through ⟨-2, 2, 0⟩ 11), (false, .through ⟨-2, 2, 0⟩ 11), (false, .through ⟨0, 0, -2⟩ 11), (false, .along ⟨1, 1, 0⟩ 0 11), (false, .along ⟨-1, 0, 0⟩ 1 11)],
  [(false, .along ⟨1, 1, 1⟩ 3 8), (false, .through ⟨-2, 2, 0⟩ 8), (true, .through ⟨2, -2, 0⟩ 8), (false, .through ⟨-2, 2, 0⟩ 8), (false, .through ⟨-2, 2, 0⟩ 8), (false, .along ⟨-1, -1, -1⟩ 7 8)],
  [(false, .flat ⟨-2, -2, -2⟩ (-8))],
  []]

def cellPlanes_8 : List (List (Bool × CellPlane)) := [
  [],
  [(false, .flat ⟨-2, -2, -2⟩ (-8))],
  [(false, .flat ⟨-2, -2, -2⟩ (-8))],
  [(false, .along ⟨1, 1, 1⟩ 0 5), (false, .flat ⟨-2, -2, -2⟩ (-8)), (false, .flat ⟨-2, -2, -2⟩ (-8))],
  [(false, .flat ⟨-2, -2, -2⟩ (-8))],
  [(false, .along ⟨1, 1, 1⟩ 4 9), (false, .flat ⟨-2, -2, -2⟩ (-8)), (false, .flat ⟨-2, -2, -2⟩ (-8))],
  [(false, .flat ⟨2, 2, -2⟩ (0)), (false, .flat ⟨-2, -2, -2⟩ (-8)), (false, .flat ⟨-2, -2, -2⟩ (-8))],
  [(false, .flat ⟨2, 2, 2⟩ (8)), (false, .flat ⟨2, 2, 2⟩ (8)), (false, .flat ⟨2, 2, 2⟩ (8)), (false, .along ⟨1, 1, 1⟩ 1 6), (true, .through ⟨-2, 0, -2⟩ 5), (false, .through ⟨2, 0, 2⟩ 5)],
  [(false, .along ⟨-1, -1, -1⟩ 3 9)],
  [(false, .along ⟨-1, -1, -1⟩ 3 9), (false, .flat ⟨2, 2, 2⟩ (4)), (false, .flat ⟨2, 2, 2⟩ (4))],
  [(false, .along ⟨1, 1, 1⟩ 3 8), (true, .through ⟨2, -2, 0⟩ 8), (false, .through ⟨-2, 2, 0⟩ 8)],
  [(false, .along ⟨1, 1, -1⟩ 0 5), (false, .through ⟨-2, 0, 0⟩ 0), (false, .through ⟨-2, -2, -2⟩ 5), (false, .along ⟨1, 1, -1⟩ 0 11), (false, .along ⟨-1, -1, 1⟩ 5 11), (false, .through ⟨2, -2, 0⟩ 11)],
  [(false, .along ⟨-1, 0, -1⟩ 3 6), (true, .through ⟨0, -2, 2⟩ 0), (false, .through ⟨0, 2, -2⟩ 0)],
  [(false, .along ⟨1, -1, 1⟩ 4 11), (false, .through ⟨0, 0, -2⟩ 11), (false, .through ⟨2, 2, -2⟩ 4), (false, .along ⟨1, 0, 0⟩ 1 11), (false, .along ⟨-1, 0, 0⟩ 1 4), (false, .through ⟨2, 2, 2⟩ 1)],
  [(false, .along ⟨1, 1, 1⟩ 3 8), (true, .through ⟨0, 2, -2⟩ 0), (false, .flat ⟨-2, 0, 2⟩ (0)), (false, .through ⟨0, -2, 2⟩ 0), (false, .through ⟨0, -2, 2⟩ 0), (false, .along ⟨-1, -1, -1⟩ 0 11)],
  [(false, .along ⟨-1, 0, -1⟩ 3 6), (true, .through ⟨-2, 0, -2⟩ 5), (false, .through ⟨2, 0, 2⟩ 5)]]

def cellPlanes_9 : List (List (Bool × CellPlane)) := [
  [(false, .flat ⟨2, 2, 2⟩ (8))],
  [(false, .along ⟨-1, -1, -1⟩ 2 8), (false, .flat ⟨-2, -2, -2⟩ (-8)), (false, .flat ⟨-2, -2, -2⟩ (-8))],
  [(false, .flat ⟨-2, -2, 2⟩ (0)), (false, .flat ⟨-2, -2, -2⟩ (-8)), (false, .flat ⟨-2, -2, -2⟩ (-8))],
  [(false, .flat ⟨2, 2, 2⟩ (8)), (false, .flat ⟨2, 2, 2⟩ (8)), (false, .flat ⟨2, 2, 2⟩ (8)), (false, .through ⟨0, 2, 2⟩ 1), (false, .along ⟨1, 1, 1⟩ 1 10), (false, .through ⟨0, -2, -2⟩ 1)],
  [(false, .flat ⟨-2, -2, -2⟩ (-8)), (false, .flat ⟨2, -2, 2⟩ (0)), (false, .flat ⟨2, 2, 2⟩ (8))],
  [(false, .flat ⟨2, 2, 2⟩ (8)), (false, .flat ⟨2, 2, 2⟩ (8)), (false, .flat ⟨2, 2, 2⟩ (8)), (false, .through ⟨2, 2, 0⟩ 9), (false, .along ⟨-1, -1, -1⟩ 6 10), (false, .through ⟨-2, -2, 0⟩ 9)],
  [(false, .flat ⟨2, -2, 2⟩ (0)), (false, .flat ⟨2, 2, -2⟩ (0)), (false, .flat ⟨-2, -2, -2⟩ (-8)), (false, .flat ⟨2, 2, -2⟩ (0)), (false, .flat ⟨-2, -2, -2⟩ (-8)), (false, .flat ⟨-2, -2, -2⟩ (-8))],
  [(false, .along ⟨1, 1, 1⟩ 1 6), (true, .through ⟨-2, 0, -2⟩ 5), (false, .flat ⟨2, -1, 1⟩ (2)), (false, .flat ⟨-2, -2, -2⟩ (-8)), (false, .through ⟨2, 0, 2⟩ 5), (false, .through ⟨2, 0, 2⟩ 5), (false, .flat ⟨-2, -2, -2⟩ (-8)), (false, .along ⟨-1, -1, -1⟩ 2 5), (false, .flat ⟨-2, -2, -2⟩ (-8)), (false, .flat ⟨-2, -2, -2⟩ (-8))],
  [(false, .along ⟨1, 1, 1⟩ 3 9), (false, .flat ⟨2, 0, 2⟩ (4)), (false, .flat ⟨2, 0, 2⟩ (4))],
  [(false, .along ⟨1, 1, 1⟩ 1 11), (false, .flat ⟨2, 0, 2⟩ (4)), (false, .flat ⟨2, 0, 2⟩ (4)), (false, .flat ⟨2, 0, 2⟩ (4)), (false, .flat ⟨2, 0, 2⟩ (4)), (false, .along ⟨-1, -1, -1⟩ 2 8)],
  [(false, .flat ⟨-2, 2, -2⟩ (0)), (false, .flat ⟨-2, 2, -2⟩ (0)), (true, .flat ⟨2, 0, 2⟩ (4)), (false, .through ⟨-2, 2, 0⟩ 8), (false, .along ⟨-1, -1, 1⟩ 5 11), (false, .through ⟨2, -2, 0⟩ 8)],
  [(false, .along ⟨1, 0, 1⟩ 5 11), (false, .along ⟨1, 0, -1⟩ 5 9), (false, .through ⟨2, 0, 2⟩ 5), (false, .through ⟨2, 0, 2⟩ 5), (false, .through ⟨0, 2, 0⟩ 5), (false, .through ⟨2, 0, 2⟩ 5), (false, .through ⟨2, 0, 2⟩ 5), (false, .through ⟨0, -2, 0⟩ 5), (false, .along ⟨-1, -1, -1⟩ 0 5), (false, .along ⟨1, 1, 1⟩ 2 5)],
  [(false, .flat ⟨-2, 2, -2⟩ (0)), (false, .flat ⟨-2, 2, -2⟩ (0)), (false, .flat ⟨-2, 2, -2⟩ (0)), (false, .along ⟨1, 1, 1⟩ 0 11), (true, .through ⟨0, -2, 2⟩ 0), (false, .through ⟨0, 2, -2⟩ 0)],
  [(false, .along ⟨-1, -1, -1⟩ 6 10), (false, .along ⟨1, 1, 1⟩ 6 8), (false, .through ⟨-2, 0, -2⟩ 6), (false, .through ⟨-2, 0, -2⟩ 6), (false, .through ⟨0, 2, 0⟩ 6), (false, .through ⟨-2, 0, -2⟩ 6), (false, .through ⟨-2, 0, -2⟩ 6), (false, .through ⟨0, -2, 0⟩ 6), (false, .along ⟨1, 0, 0⟩ 1 6), (false, .along ⟨-1, 0, -1⟩ 3 6)],
  [(false, .along ⟨1, 1, 1⟩ 0 11), (true, .through ⟨0, -2, 2⟩ 0), (false, .flat ⟨2, 0, -2⟩ (0)), (false, .flat ⟨2, -2, 2⟩ (0)), (false, .through ⟨0, 2, -2⟩ 0), (false, .through ⟨0, 2, -2⟩ 0), (false, .flat ⟨2, -2, 2⟩ (0)), (false, .along ⟨-1, -1, -1⟩ 3 8), (false, .flat ⟨2, -2, 2⟩ (0)), (false, .flat ⟨2, -2, 2⟩ (0))],
  [(false, .along ⟨-1, 0, -1⟩ 3 6), (false, .through ⟨2, 0, 2⟩ 6), (true, .through ⟨-2, 0, -2⟩ 5), (false, .through ⟨2, 0, 2⟩ 5), (false, .through ⟨2, 0, 2⟩ 5), (false, .along ⟨1, 1, 1⟩ 6 10)]]

def cellPlanes_10 : List (List (Bool × CellPlane)) := [
  [(false, .along ⟨1, 1, 1⟩ 5 11)],
  [(false, .along ⟨1, 1, 1⟩ 5 11), (false, .flat ⟨2, 2, 2⟩ (4)), (false, .flat ⟨2, 2, 2⟩ (4))],
  [(false, .along ⟨-1, -1, 1⟩ 1 11), (true, .through ⟨-2, 2, 0⟩ 8), (false, .through ⟨2, -2, 0⟩ 8)],
  [(false, .along ⟨1, 1, -1⟩ 1 4), (false, .through ⟨0, -2, 0⟩ 4), (false, .through ⟨-2, -2, -2⟩ 1), (false, .along ⟨-1, -1, 1⟩ 4 11), (false, .along ⟨1, 1, -1⟩ 1 11), (false, .through ⟨-2, 2, -2⟩ 11)],
  [(false, .along ⟨-1, -1, -1⟩ 5 11), (false, .flat ⟨-2, 2, 0⟩ (0)), (false, .flat ⟨-2, 2, 2⟩ (0))],
  [(false, .along ⟨1, 1, 1⟩ 7 10), (false, .flat ⟨0, 2, 2⟩ (4)), (false, .flat ⟨1, 2, 1⟩ (4)), (false, .flat ⟨-1, 1, 2⟩ (2)), (false, .flat ⟨0, 2, 2⟩ (4)), (false, .along ⟨-1, -1, -1⟩ 4 9)],
  [(false, .flat ⟨2, -2, -2⟩ (0)), (true, .flat ⟨-2, 2, 0⟩ (0)), (true, .flat ⟨-2, 0, 2⟩ (0)), (false, .through ⟨2, -2, 0⟩ 8), (false, .along ⟨1, 1, 1⟩ 7 8), (false, .through ⟨-2, 2, 0⟩ 8)],
  [(false, .along ⟨-1, -1, -1⟩ 1 6), (false, .along ⟨1, 1, 1⟩ 1 4), (false, .through ⟨0, -2, -2⟩ 1), (false, .through ⟨0, -2, -2⟩ 1), (false, .through ⟨2, 0, 0⟩ 1), (false, .through ⟨0, -2, -2⟩ 1), (false, .through ⟨0, -2, -2⟩ 1), (false, .through ⟨-2, 0, 0⟩ 1), (false, .along ⟨1, 0, -1⟩ 1 10), (false, .along ⟨-1, 0, 1⟩ 1 11)],
  [(false, .along ⟨1, 1, 1⟩ 5 9), (true, .through ⟨2, 2, 0⟩ 9), (false, .through ⟨-2, -2, 0⟩ 9)],
  [(false, .flat ⟨-2, -2, -2⟩ (-4)), (false, .flat ⟨-2, -2, -2⟩ (-4)), (false, .flat ⟨-2, -2, -2⟩ (-4)), (false, .through ⟨-2, -2, 0⟩ 9), (false, .along ⟨1, 1, 1⟩ 1 10), (false, .through ⟨2, 2, 0⟩ 9)],
  [(false, .through ⟨2, -2, 0⟩ 8)],
  [(false, .along ⟨1, 1, 0⟩ 0 10), (true, .through ⟨2, 2, 0⟩ 9), (false, .through ⟨-2, -2, 0⟩ 9)],
  [(false, .along ⟨1, 0, 1⟩ 6 10), (false, .through ⟨0, 2, 0⟩ 6), (false, .through ⟨2, 2, 0⟩ 10), (false, .along ⟨-1, 0, -1⟩ 1 6), (false, .along ⟨1, 1, 1⟩ 1 10), (false, .through ⟨2, -2, -2⟩ 1)],
  [(false, .along ⟨1, 1, 1⟩ 1 10), (false, .along ⟨-1, -1, -1⟩ 1 11), (false, .through ⟨0, 2, 2⟩ 1), (false, .through ⟨0, 2, 2⟩ 1), (false, .through ⟨-2, 0, 0⟩ 1), (false, .through ⟨0, 2, 2⟩ 1), (false, .through ⟨0, 2, 2⟩ 1), (false, .through ⟨2, 0, 0⟩ 1), (false, .along ⟨-1, 1, 0⟩ 1 6), (false, .along ⟨1, -1, 0⟩ 1 4)],
  [(false, .along ⟨1, 1, -1⟩ 6 8), (true, .through ⟨-2, 2, 0⟩ 8), (false, .through ⟨2, -2, 0⟩ 8)],
  [(false, .along ⟨1, 1, -1⟩ 6 10)]]

def cellPlanes_11 : List (List (Bool × CellPlane)) := [
  [(false, .along ⟨-1, -1, -1⟩ 4 11), (true, .through ⟨-2, 0, 2⟩ 4), (false, .through ⟨2, 0, -2⟩ 4)],
  [(false, .along ⟨1, 0, 0⟩ 0 11), (false, .through ⟨0, 0, -2⟩ 11), (false, .through ⟨2, 2, -2⟩ 0), (false, .along ⟨1, -1, 0⟩ 5 11), (false, .along ⟨1, 0, 1⟩ 0 5), (false, .through ⟨2, 2, 2⟩ 5)],
  [(false, .along ⟨-1, -1, 1⟩ 1 11), (true, .through ⟨-2, 2, 0⟩ 8), (false, .flat ⟨2, 0, 2⟩ (4)), (false, .through ⟨2, -2, 0⟩ 8), (false, .through ⟨2, -2, 0⟩ 8), (false, .along ⟨1, 1, -1⟩ 2 8)],
  [(false, .along ⟨-1, -1, 1⟩ 1 11), (true, .through ⟨0, -2, -2⟩ 1), (false, .through ⟨0, 2, 2⟩ 1)],
  [(false, .flat ⟨2, -2, -2⟩ (0)), (true, .flat ⟨-2, 0, 2⟩ (0)), (false, .flat ⟨2, -2, -2⟩ (0)), (false, .through ⟨2, 0, -2⟩ 4), (false, .along ⟨-1, 0, 0⟩ 2 7), (false, .through ⟨-2, 0, 2⟩ 4)],
  [(false, .along ⟨-1, 1, 0⟩ 2 7), (false, .along ⟨1, -1, 0⟩ 2 5), (false, .through ⟨0, 2, 2⟩ 2), (false, .through ⟨0, 2, 2⟩ 2), (false, .through ⟨2, 0, 0⟩ 2), (false, .through ⟨0, 2, 2⟩ 2), (false, .through ⟨0, 2, 2⟩ 2), (false, .through ⟨-2, 0, 0⟩ 2), (false, .along ⟨1, 1, 1⟩ 2 8), (false, .along ⟨-1, -1, -1⟩ 2 9)],
  [(false, .along ⟨-1, -1, -1⟩ 7 8), (true, .through ⟨-2, 2, 0⟩ 8), (false, .flat ⟨-1, -1, 2⟩ (0)), (false, .flat ⟨-2, 0, 2⟩ (0)), (false, .through ⟨2, -2, 0⟩ 8), (false, .through ⟨2, -2, 0⟩ 8), (false, .flat ⟨-2, 2, 2⟩ (0)), (false, .along ⟨1, 1, 1⟩ 4 11), (false, .flat ⟨-2, 2, 0⟩ (0)), (false, .flat ⟨-2, 2, 0⟩ (0))],
  [(false, .along ⟨-1, -1, 1⟩ 1 11), (false, .through ⟨0, 2, 2⟩ 1), (true, .through ⟨0, -2, -2⟩ 1), (false, .through ⟨0, 2, 2⟩ 1), (false, .through ⟨0, 2, 2⟩ 1), (false, .along ⟨1, 1, 1⟩ 1 6)],
  [(false, .along ⟨1, 1, 1⟩ 1 11), (false, .through ⟨2, 0, 0⟩ 1), (false, .through ⟨2, -2, 2⟩ 11), (false, .along ⟨1, 1, 1⟩ 1 4), (false, .along ⟨1, 1, 1⟩ 4 11), (false, .through ⟨-2, -2, 2⟩ 4)],
  [(false, .along ⟨1, 0, 1⟩ 0 5), (false, .along ⟨-1, 0, 0⟩ 2 5), (false, .through ⟨-2, 0, -2⟩ 5), (false, .through ⟨-2, 0, -2⟩ 5), (false, .through ⟨0, -2, 0⟩ 5), (false, .through ⟨-2, 0, -2⟩ 5), (false, .through ⟨-2, 0, -2⟩ 5), (false, .through ⟨0, 2, 0⟩ 5), (false, .along ⟨-1, -1, -1⟩ 5 11), (false, .along ⟨1, 1, 1⟩ 5 9)],
  [(false, .along ⟨-1, -1, -1⟩ 4 11), (true, .through ⟨2, -2, 0⟩ 8), (false, .through ⟨-2, 2, 0⟩ 8)],
  [(false, .along ⟨1, 1, 0⟩ 0 11)],
  [(false, .along ⟨-1, 0, -1⟩ 0 11), (false, .along ⟨1, 1, 0⟩ 1 11), (false, .through ⟨2, -2, 0⟩ 11), (false, .through ⟨2, -2, 0⟩ 11), (false, .through ⟨0, 0, -2⟩ 11), (false, .through ⟨2, -2, 0⟩ 11), (false, .through ⟨2, -2, 0⟩ 11), (false, .through ⟨0, 0, 2⟩ 11), (false, .along ⟨1, 1, 0⟩ 5 11), (false, .along ⟨1, 0, 0⟩ 4 11)],
  [(false, .flat ⟨2, 2, 0⟩ (4))],
  [(false, .along ⟨-1, -1, -1⟩ 4 11), (false, .through ⟨-2, 2, 0⟩ 11), (true, .through ⟨2, -2, 0⟩ 8), (false, .through ⟨-2, 2, 0⟩ 8), (false, .through ⟨-2, 2, 0⟩ 8), (false, .along ⟨1, 1, 1⟩ 0 11)],
  []]

def cellPlanes_12 : List (List (Bool × CellPlane)) := [
  [(false, .along ⟨-1, -1, -1⟩ 2 7)],
  [(false, .along ⟨1, 1, 1⟩ 2 7), (false, .flat ⟨2, 2, 2⟩ (4)), (false, .flat ⟨2, 2, 2⟩ (4))],
  [(false, .along ⟨-1, -1, -1⟩ 2 7), (false, .flat ⟨2, 2, 0⟩ (4)), (false, .flat ⟨2, 2, 0⟩ (4))],
  [(false, .along ⟨1, 1, 1⟩ 1 4), (false, .flat ⟨-2, -2, 0⟩ (-4)), (false, .flat ⟨-2, -2, 0⟩ (-4)), (false, .flat ⟨-2, -2, 0⟩ (-4)), (false, .flat ⟨-2, -2, 0⟩ (-4)), (false, .along ⟨-1, -1, -1⟩ 2 7)],
  [(false, .along ⟨-1, -1, -1⟩ 0 7), (true, .through ⟨0, 2, -2⟩ 0), (false, .through ⟨0, -2, 2⟩ 0)],
  [(false, .along ⟨-1, 0, 1⟩ 4 9), (false, .through ⟨0, -2, 0⟩ 4), (false, .through ⟨-2, -2, -2⟩ 9), (false, .along ⟨1, 0, 0⟩ 3 4), (false, .along ⟨-1, -1, 0⟩ 3 9), (false, .through ⟨-2, 2, -2⟩ 3)],
  [(false, .flat ⟨-2, -2, 2⟩ (0)), (false, .flat ⟨-2, -2, 2⟩ (0)), (true, .flat ⟨2, 2, 0⟩ (4)), (false, .through ⟨0, -2, 2⟩ 0), (false, .along ⟨-1, -1, 0⟩ 3 9), (false, .through ⟨0, 2, -2⟩ 0)],
  [(false, .along ⟨-1, -1, 0⟩ 3 9), (false, .along ⟨1, 1, -1⟩ 2 9), (false, .through ⟨2, 2, 0⟩ 9), (false, .through ⟨2, 2, 0⟩ 9), (false, .through ⟨0, 0, 2⟩ 9), (false, .through ⟨2, 2, 0⟩ 9), (false, .through ⟨2, 2, 0⟩ 9), (false, .through ⟨0, 0, -2⟩ 9), (false, .along ⟨-1, -1, -1⟩ 4 9), (false, .along ⟨1, 1, 1⟩ 5 9)],
  [(false, .along ⟨-1, -1, -1⟩ 2 9), (true, .through ⟨0, 2, 2⟩ 1), (false, .through ⟨0, -2, -2⟩ 1)],
  [(false, .flat ⟨-2, -2, -2⟩ (-4)), (false, .flat ⟨-2, -2, -2⟩ (-4)), (false, .flat ⟨-2, -2, -2⟩ (-4)), (false, .along ⟨1, 1, 1⟩ 1 6), (true, .through ⟨0, 2, 2⟩ 1), (false, .through ⟨0, -2, -2⟩ 1)],
  [(false, .along ⟨-1, -1, -1⟩ 3 6), (false, .through ⟨0, 2, 0⟩ 6), (false, .through ⟨2, 2, -2⟩ 3), (false, .along ⟨1, 1, 1⟩ 6 8), (false, .along ⟨-1, -1, -1⟩ 3 8), (false, .through ⟨2, -2, 0⟩ 8)],
  [(false, .along ⟨1, 1, 0⟩ 4 9), (false, .along ⟨-1, -1, 1⟩ 5 9), (false, .through ⟨-2, -2, 0⟩ 9), (false, .through ⟨-2, -2, 0⟩ 9), (false, .through ⟨0, 0, -2⟩ 9), (false, .through ⟨-2, -2, 0⟩ 9), (false, .through ⟨-2, -2, 0⟩ 9), (false, .through ⟨0, 0, 2⟩ 9), (false, .along ⟨1, 1, 1⟩ 3 9), (false, .along ⟨-1, -1, -1⟩ 2 9)],
  [(false, .through ⟨0, -2, -2⟩ 1)],
  [(false, .along ⟨1, 0, 0⟩ 1 4), (true, .through ⟨0, 2, 2⟩ 1), (false, .through ⟨0, -2, -2⟩ 1)],
  [(false, .along ⟨1, 1, 1⟩ 3 8), (true, .through ⟨0, 2, -2⟩ 0), (false, .through ⟨0, -2, 2⟩ 0)],
  [(false, .along ⟨-1, 0, -1⟩ 3 4)]]

def cellPlanes_13 : List (List (Bool × CellPlane)) := [
  [(false, .along ⟨-1, -1, 0⟩ 7 10), (true, .through ⟨2, 0, -2⟩ 4), (false, .through ⟨-2, 0, 2⟩ 4)],
  [(false, .along ⟨-1, 1, -1⟩ 0 10), (false, .through ⟨-2, 0, 0⟩ 0), (false, .through ⟨-2, -2, -2⟩ 10), (false, .along ⟨-1, 1, -1⟩ 0 7), (false, .along ⟨1, 1, 0⟩ 7 10), (false, .through ⟨2, 0, -2⟩ 7)],
  [(false, .flat ⟨-2, -2, 2⟩ (0)), (false, .flat ⟨-2, -2, 2⟩ (0)), (false, .flat ⟨-2, -2, 2⟩ (0)), (false, .through ⟨-2, 0, 2⟩ 4), (false, .along ⟨1, 1, 1⟩ 3 4), (false, .through ⟨2, 0, -2⟩ 4)],
  [(false, .along ⟨1, 1, 1⟩ 1 10), (false, .along ⟨-1, -1, -1⟩ 0 10), (false, .through ⟨-2, -2, 0⟩ 10), (false, .through ⟨-2, -2, 0⟩ 10), (false, .through ⟨0, 0, 2⟩ 10), (false, .through ⟨-2, -2, 0⟩ 10), (false, .through ⟨-2, -2, 0⟩ 10), (false, .through ⟨0, 0, -2⟩ 10), (false, .along ⟨1, 1, -1⟩ 6 10), (false, .along ⟨-1, -1, 0⟩ 7 10)],
  [(false, .along ⟨-1, -1, 0⟩ 7 10), (true, .through ⟨-2, -2, 0⟩ 9), (false, .flat ⟨1, 2, 1⟩ (4)), (false, .through ⟨2, 2, 0⟩ 9), (false, .through ⟨2, 2, 0⟩ 9), (false, .along ⟨1, 1, 0⟩ 4 9)],
  [(false, .along ⟨-1, -1, 0⟩ 7 10), (true, .through ⟨-2, -2, 0⟩ 9), (false, .through ⟨2, 2, 0⟩ 9)],
  [(false, .along ⟨-1, -1, 0⟩ 4 9), (true, .through ⟨2, 2, 0⟩ 9), (false, .flat ⟨-1, -2, -1⟩ (-4)), (false, .flat ⟨2, 2, -2⟩ (0)), (false, .through ⟨-2, -2, 0⟩ 9), (false, .through ⟨-2, -2, 0⟩ 9), (false, .flat ⟨2, 2, -2⟩ (0)), (false, .along ⟨1, 1, 0⟩ 7 10), (false, .flat ⟨2, 2, 0⟩ (4)), (false, .flat ⟨2, 2, 0⟩ (4))],
  [(false, .along ⟨1, 1, 1⟩ 5 9), (false, .through ⟨-2, -2, 0⟩ 9), (true, .through ⟨2, 2, 0⟩ 9), (false, .through ⟨-2, -2, 0⟩ 9), (false, .through ⟨-2, -2, 0⟩ 9), (false, .along ⟨1, 1, 0⟩ 3 9)],
  [(false, .along ⟨1, 1, 1⟩ 3 9), (false, .through ⟨0, 0, 2⟩ 9), (false, .through ⟨2, -2, 2⟩ 3), (false, .along ⟨1, 1, 1⟩ 4 9), (false, .along ⟨1, 1, 1⟩ 3 4), (false, .through ⟨2, 0, -2⟩ 4)],
  [(false, .along ⟨-1, -1, -1⟩ 1 6), (false, .along ⟨1, 1, 1⟩ 3 6), (false, .through ⟨2, 0, 2⟩ 6), (false, .through ⟨2, 0, 2⟩ 6), (false, .through ⟨0, -2, 0⟩ 6), (false, .through ⟨2, 0, 2⟩ 6), (false, .through ⟨2, 0, 2⟩ 6), (false, .through ⟨0, 2, 0⟩ 6), (false, .along ⟨-1, 0, 1⟩ 6 10), (false, .along ⟨-1, 0, -1⟩ 6 8)],
  [(false, .along ⟨1, 1, 0⟩ 3 4), (false, .along ⟨-1, -1, 0⟩ 3 6), (false, .through ⟨0, 2, -2⟩ 3), (false, .through ⟨0, 2, -2⟩ 3), (false, .through ⟨-2, 0, 0⟩ 3), (false, .through ⟨0, 2, -2⟩ 3), (false, .through ⟨0, 2, -2⟩ 3), (false, .through ⟨2, 0, 0⟩ 3), (false, .along ⟨-1, 0, -1⟩ 3 9), (false, .along ⟨1, 0, 1⟩ 3 8)],
  [(false, .flat ⟨2, 0, -2⟩ (0))],
  [(false, .along ⟨1, 1, 0⟩ 0 10), (true, .through ⟨0, -2, 2⟩ 0), (false, .through ⟨0, 2, -2⟩ 0)],
  [(false, .along ⟨1, 1, -1⟩ 1 10)],
  [(false, .along ⟨1, 1, 0⟩ 0 10), (false, .through ⟨0, 2, -2⟩ 0), (true, .through ⟨0, -2, 2⟩ 0), (false, .through ⟨0, 2, -2⟩ 0), (false, .through ⟨0, 2, -2⟩ 0), (false, .along ⟨-1, 0, -1⟩ 0 5)],
  []]

def cellPlanes_14 : List (List (Bool × CellPlane)) := [
  [(false, .along ⟨1, 1, 1⟩ 2 5), (true, .through ⟨2, 0, 2⟩ 5), (false, .through ⟨-2, 0, -2⟩ 5)],
  [(false, .flat ⟨-2, -2, -2⟩ (-4)), (false, .flat ⟨-2, -2, -2⟩ (-4)), (false, .flat ⟨-2, -2, -2⟩ (-4)), (false, .along ⟨1, 1, 1⟩ 6 10), (true, .through ⟨2, 0, 2⟩ 5), (false, .through ⟨-2, 0, -2⟩ 5)],
  [(false, .along ⟨-1, 1, 1⟩ 1 6), (false, .through ⟨2, 0, 0⟩ 1), (false, .through ⟨2, 0, 2⟩ 6), (false, .along ⟨-1, 1, 1⟩ 1 10), (false, .along ⟨-1, -1, -1⟩ 6 10), (false, .through ⟨-2, -2, 0⟩ 10)],
  [(false, .along ⟨-1, -1, -1⟩ 6 10), (false, .along ⟨1, 1, 1⟩ 7 10), (false, .through ⟨2, 2, 0⟩ 10), (false, .through ⟨2, 2, 0⟩ 10), (false, .through ⟨0, 0, -2⟩ 10), (false, .through ⟨2, 2, 0⟩ 10), (false, .through ⟨2, 2, 0⟩ 10), (false, .through ⟨0, 0, 2⟩ 10), (false, .along ⟨-1, -1, 1⟩ 1 10), (false, .along ⟨1, 1, 0⟩ 0 10)],
  [(false, .along ⟨1, 1, 0⟩ 5 9), (false, .through ⟨0, 0, 2⟩ 9), (false, .through ⟨2, 0, 2⟩ 5), (false, .along ⟨1, 1, 0⟩ 2 9), (false, .along ⟨-1, -1, -1⟩ 2 5), (false, .through ⟨2, -2, -2⟩ 2)],
  [(false, .along ⟨1, 0, -1⟩ 2 8), (false, .along ⟨-1, 0, 1⟩ 2 9), (false, .through ⟨0, -2, -2⟩ 2), (false, .through ⟨0, -2, -2⟩ 2), (false, .through ⟨-2, 0, 0⟩ 2), (false, .through ⟨0, -2, -2⟩ 2), (false, .through ⟨0, -2, -2⟩ 2), (false, .through ⟨2, 0, 0⟩ 2), (false, .along ⟨-1, -1, -1⟩ 2 7), (false, .along ⟨1, 1, 1⟩ 2 5)],
  [(false, .along ⟨-1, 0, 0⟩ 7 8), (false, .along ⟨-1, 0, -1⟩ 7 10), (false, .through ⟨-2, 0, 2⟩ 7), (false, .through ⟨-2, 0, 2⟩ 7), (false, .through ⟨0, -2, 0⟩ 7), (false, .through ⟨-2, 0, 2⟩ 7), (false, .through ⟨-2, 0, 2⟩ 7), (false, .through ⟨0, 2, 0⟩ 7), (false, .along ⟨1, 1, 0⟩ 2 7), (false, .along ⟨-1, -1, 0⟩ 0 7)],
  [(false, .flat ⟨2, 0, 2⟩ (4))],
  [(false, .along ⟨1, 1, 1⟩ 2 5), (true, .through ⟨2, 0, 2⟩ 5), (false, .flat ⟨-2, 1, -1⟩ (-2)), (false, .through ⟨-2, 0, -2⟩ 5), (false, .through ⟨-2, 0, -2⟩ 5), (false, .along ⟨-1, -1, -1⟩ 1 6)],
  [(false, .along ⟨1, 1, 1⟩ 6 10), (true, .through ⟨2, 0, 2⟩ 5), (false, .flat ⟨1, 2, -1⟩ (2)), (false, .flat ⟨2, 2, 2⟩ (4)), (false, .through ⟨-2, 0, -2⟩ 5), (false, .through ⟨-2, 0, -2⟩ 5), (false, .flat ⟨2, 2, 2⟩ (4)), (false, .along ⟨-1, -1, -1⟩ 5 9), (false, .flat ⟨2, 2, 2⟩ (4)), (false, .flat ⟨2, 2, 2⟩ (4))],
  [(false, .along ⟨-1, -1, -1⟩ 2 9), (true, .through ⟨-2, -2, 0⟩ 9), (false, .through ⟨2, 2, 0⟩ 9)],
  [(false, .along ⟨-1, -1, -1⟩ 2 9), (false, .through ⟨2, 2, 0⟩ 9), (true, .through ⟨-2, -2, 0⟩ 9), (false, .through ⟨2, 2, 0⟩ 9), (false, .through ⟨2, 2, 0⟩ 9), (false, .along ⟨-1, -1, 0⟩ 4 9)],
  [(false, .along ⟨1, 1, 1⟩ 2 5), (true, .through ⟨0, -2, -2⟩ 1), (false, .through ⟨0, 2, 2⟩ 1)],
  [(false, .along ⟨1, 1, 1⟩ 2 5), (false, .through ⟨0, 2, 2⟩ 2), (true, .through ⟨0, -2, -2⟩ 1), (false, .through ⟨0, 2, 2⟩ 1), (false, .through ⟨0, 2, 2⟩ 1), (false, .along ⟨-1, -1, 1⟩ 2 8)],
  [(false, .along ⟨-1, -1, -1⟩ 2 8)],
  []]

def cellPlanes_15 : List (List (Bool × CellPlane)) := [
  [(false, .through ⟨2, 0, -2⟩ 4)],
  [(false, .along ⟨1, 1, -1⟩ 6 8), (true, .through ⟨2, 0, 2⟩ 5), (false, .through ⟨-2, 0, -2⟩ 5)],
  [(false, .along ⟨1, 0, 0⟩ 1 4), (true, .through ⟨2, 0, -2⟩ 4), (false, .through ⟨-2, 0, 2⟩ 4)],
  [(false, .along ⟨-1, 0, 0⟩ 1 6)],
  [(false, .along ⟨-1, -1, -1⟩ 0 7), (true, .through ⟨-2, 0, 2⟩ 4), (false, .through ⟨2, 0, -2⟩ 4)],
  [(false, .along ⟨1, 1, 0⟩ 7 8)],
  [(false, .along ⟨1, 0, 0⟩ 1 4), (false, .through ⟨-2, 0, 2⟩ 4), (true, .through ⟨2, 0, -2⟩ 4), (false, .through ⟨-2, 0, 2⟩ 4), (false, .through ⟨-2, 0, 2⟩ 4), (false, .along ⟨-1, -1, 0⟩ 4 9)],
  [],
  [(false, .along ⟨1, 1, 1⟩ 5 9), (true, .through ⟨-2, 0, -2⟩ 5), (false, .through ⟨2, 0, 2⟩ 5)],
  [(false, .along ⟨1, 1, -1⟩ 6 8), (false, .through ⟨-2, 0, -2⟩ 6), (true, .through ⟨2, 0, 2⟩ 5), (false, .through ⟨-2, 0, -2⟩ 5), (false, .through ⟨-2, 0, -2⟩ 5), (false, .along ⟨1, 1, 1⟩ 1 6)],
  [(false, .along ⟨1, 1, 1⟩ 4 9)],
  [],
  [(false, .along ⟨-1, -1, -1⟩ 0 5)],
  [],
  [],
  []]

/-- For every pattern, planes for the pairs of its triangles; `true` if the first triangle is the one strictly on its side. -/
def cellPlanes : List (List (Bool × CellPlane)) :=
  cellPlanes_0 ++ cellPlanes_1 ++ cellPlanes_2 ++ cellPlanes_3 ++ cellPlanes_4 ++ cellPlanes_5 ++ cellPlanes_6 ++ cellPlanes_7 ++ cellPlanes_8 ++ cellPlanes_9 ++ cellPlanes_10 ++ cellPlanes_11 ++ cellPlanes_12 ++ cellPlanes_13 ++ cellPlanes_14 ++ cellPlanes_15

end Isomesh
