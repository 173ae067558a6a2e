import Verif.Basic

/-! Look-up tables (src/util/tables.cpp), transcribed by a script.  `-1` terminators of
`kMcTriangleTable` and the `-1` entries of `kMdcEdgeSetIndex` are kept (`Int`). -/

namespace Isomesh

/-- `kCellEdgeEndpoint` (src/util/tables.cpp:8-12). -/
def kCellEdgeEndpoint : List (List Nat) := [
  [0, 2], [1, 3], [4, 6], [5, 7], [0, 4], [1, 5], [2, 6], [3, 7], [0, 1], [2, 3], [4, 5], [6, 7]]

/-- `kCellEdgeDirection` (src/util/tables.cpp:14-16). -/
def kCellEdgeDirection : List Nat := [
  0, 0, 0, 0, 1, 1, 1, 1, 2, 2, 2, 2]

/-- `kCellCornerOffset` (src/util/tables.cpp:18-21). -/
def kCellCornerOffset : List IVec3 := [
  ⟨0, 0, 0⟩, ⟨0, 0, 1⟩, ⟨1, 0, 0⟩, ⟨1, 0, 1⟩, ⟨0, 1, 0⟩, ⟨0, 1, 1⟩, ⟨1, 1, 0⟩, ⟨1, 1, 1⟩]

/-- `kEdgeProcCallTable` (src/util/tables.cpp:25-29). -/
def kEdgeProcCallTable : List (List (List Nat)) := [
  [[0, 4, 5, 1], [2, 6, 7, 3]], [[0, 1, 3, 2], [4, 5, 7, 6]], [[0, 2, 6, 4], [1, 3, 7, 5]]]

/-- `kEdgeProcChildTable` (src/util/tables.cpp:31-44). -/
def kEdgeProcChildTable : List (List (List Nat)) := [
  [[0, 5], [3, 4], [0, 7], [3, 6], [1, 1], [2, 0], [1, 3], [2, 2]],
  [[0, 3], [1, 2], [3, 1], [2, 0], [0, 7], [1, 6], [3, 5], [2, 4]],
  [[0, 6], [0, 7], [1, 4], [1, 5], [3, 2], [3, 3], [2, 0], [2, 1]]]

/-- `kEdgeProcSharedEdge` (src/util/tables.cpp:46-50). -/
def kEdgeProcSharedEdge : List (List Nat) := [
  [3, 1, 0, 2], [7, 6, 4, 5], [11, 10, 8, 9]]

/-- `kFaceProcCallTable` (src/util/tables.cpp:52-56). -/
def kFaceProcCallTable : List (List (List Nat)) := [
  [[0, 2], [1, 3], [4, 6], [5, 7]], [[0, 4], [1, 5], [2, 6], [3, 7]], [[0, 1], [2, 3], [4, 5], [6, 7]]]

/-- `kFaceProcChildTable` (src/util/tables.cpp:58-71). -/
def kFaceProcChildTable : List (List (List Nat)) := [
  [[0, 2], [0, 3], [1, 0], [1, 1], [0, 6], [0, 7], [1, 4], [1, 5]],
  [[0, 4], [0, 5], [0, 6], [0, 7], [1, 0], [1, 1], [1, 2], [1, 3]],
  [[0, 1], [1, 0], [0, 3], [1, 2], [0, 5], [1, 4], [0, 7], [1, 6]]]

/-- `kMcVertexMaskToEdgeMask` (src/util/tables.cpp:75-140). -/
def kMcVertexMaskToEdgeMask : List Nat := [
  0, 273, 290, 51, 577, 848, 867, 626, 642, 915, 928, 689, 195, 466, 481, 240, 1044, 1285, 1334, 1063,
  1621, 1860, 1911, 1638, 1686, 1927, 1972, 1701, 1239, 1478, 1525, 1252, 1064, 1337, 1290, 1051, 1641,
  1912, 1867, 1626, 1706, 1979, 1928, 1689, 1259, 1530, 1481, 1240, 60, 301, 286, 15, 637, 876, 863, 590,
  702, 943, 924, 653, 255, 494, 477, 204, 2116, 2389, 2406, 2167, 2565, 2836, 2855, 2614, 2758, 3031, 3044,
  2805, 2183, 2454, 2469, 2228, 3152, 3393, 3442, 3171, 3601, 3840, 3891, 3618, 3794, 4035, 4080, 3809,
  3219, 3458, 3505, 3232, 3180, 3453, 3406, 3167, 3629, 3900, 3855, 3614, 3822, 4095, 4044, 3805, 3247,
  3518, 3469, 3228, 2168, 2409, 2394, 2123, 2617, 2856, 2843, 2570, 2810, 3051, 3032, 2761, 2235, 2474,
  2457, 2184, 2184, 2457, 2474, 2235, 2761, 3032, 3051, 2810, 2570, 2843, 2856, 2617, 2123, 2394, 2409,
  2168, 3228, 3469, 3518, 3247, 3805, 4044, 4095, 3822, 3614, 3855, 3900, 3629, 3167, 3406, 3453, 3180,
  3232, 3505, 3458, 3219, 3809, 4080, 4035, 3794, 3618, 3891, 3840, 3601, 3171, 3442, 3393, 3152, 2228,
  2469, 2454, 2183, 2805, 3044, 3031, 2758, 2614, 2855, 2836, 2565, 2167, 2406, 2389, 2116, 204, 477, 494,
  255, 653, 924, 943, 702, 590, 863, 876, 637, 15, 286, 301, 60, 1240, 1481, 1530, 1259, 1689, 1928, 1979,
  1706, 1626, 1867, 1912, 1641, 1051, 1290, 1337, 1064, 1252, 1525, 1478, 1239, 1701, 1972, 1927, 1686,
  1638, 1911, 1860, 1621, 1063, 1334, 1285, 1044, 240, 481, 466, 195, 689, 928, 915, 642, 626, 867, 848,
  577, 51, 290, 273, 0]

/-- Rows 0..15 of `kMcTriangleTable` (src/util/tables.cpp:143-158). -/
def kMcTriangleTable_0 : List (List Int) := [
  [-1, -1, -1, -1, -1, -1, -1, -1, -1, -1, -1, -1, -1, -1, -1, -1],
  [0, 4, 8, -1, -1, -1, -1, -1, -1, -1, -1, -1, -1, -1, -1, -1],
  [8, 5, 1, -1, -1, -1, -1, -1, -1, -1, -1, -1, -1, -1, -1, -1],
  [0, 5, 1, 4, 5, 0, -1, -1, -1, -1, -1, -1, -1, -1, -1, -1],
  [0, 9, 6, -1, -1, -1, -1, -1, -1, -1, -1, -1, -1, -1, -1, -1],
  [9, 4, 8, 6, 4, 9, -1, -1, -1, -1, -1, -1, -1, -1, -1, -1],
  [9, 6, 0, 1, 8, 5, -1, -1, -1, -1, -1, -1, -1, -1, -1, -1],
  [9, 5, 1, 9, 6, 5, 6, 4, 5, -1, -1, -1, -1, -1, -1, -1],
  [9, 1, 7, -1, -1, -1, -1, -1, -1, -1, -1, -1, -1, -1, -1, -1],
  [0, 4, 8, 9, 1, 7, -1, -1, -1, -1, -1, -1, -1, -1, -1, -1],
  [8, 7, 9, 5, 7, 8, -1, -1, -1, -1, -1, -1, -1, -1, -1, -1],
  [0, 7, 9, 0, 4, 7, 4, 5, 7, -1, -1, -1, -1, -1, -1, -1],
  [6, 1, 7, 0, 1, 6, -1, -1, -1, -1, -1, -1, -1, -1, -1, -1],
  [1, 4, 8, 1, 7, 4, 7, 6, 4, -1, -1, -1, -1, -1, -1, -1],
  [8, 6, 0, 8, 5, 6, 5, 7, 6, -1, -1, -1, -1, -1, -1, -1],
  [6, 4, 7, 7, 4, 5, -1, -1, -1, -1, -1, -1, -1, -1, -1, -1]]

/-- Rows 16..31 of `kMcTriangleTable` (src/util/tables.cpp:159-174). -/
def kMcTriangleTable_1 : List (List Int) := [
  [2, 10, 4, -1, -1, -1, -1, -1, -1, -1, -1, -1, -1, -1, -1, -1],
  [2, 8, 0, 10, 8, 2, -1, -1, -1, -1, -1, -1, -1, -1, -1, -1],
  [4, 2, 10, 8, 5, 1, -1, -1, -1, -1, -1, -1, -1, -1, -1, -1],
  [5, 2, 10, 5, 1, 2, 1, 0, 2, -1, -1, -1, -1, -1, -1, -1],
  [0, 9, 6, 4, 2, 10, -1, -1, -1, -1, -1, -1, -1, -1, -1, -1],
  [2, 9, 6, 2, 10, 9, 10, 8, 9, -1, -1, -1, -1, -1, -1, -1],
  [6, 0, 9, 4, 2, 10, 1, 8, 5, -1, -1, -1, -1, -1, -1, -1],
  [2, 10, 5, 6, 2, 5, 6, 5, 1, 6, 1, 9, -1, -1, -1, -1],
  [9, 1, 7, 4, 2, 10, -1, -1, -1, -1, -1, -1, -1, -1, -1, -1],
  [8, 2, 10, 8, 0, 2, 9, 1, 7, -1, -1, -1, -1, -1, -1, -1],
  [8, 7, 9, 8, 5, 7, 10, 4, 2, -1, -1, -1, -1, -1, -1, -1],
  [9, 5, 7, 9, 2, 5, 9, 0, 2, 10, 5, 2, -1, -1, -1, -1],
  [6, 1, 7, 6, 0, 1, 4, 2, 10, -1, -1, -1, -1, -1, -1, -1],
  [1, 7, 6, 1, 6, 10, 1, 10, 8, 10, 6, 2, -1, -1, -1, -1],
  [2, 10, 4, 6, 0, 5, 6, 5, 7, 5, 0, 8, -1, -1, -1, -1],
  [2, 10, 5, 2, 5, 6, 6, 5, 7, -1, -1, -1, -1, -1, -1, -1]]

/-- Rows 32..47 of `kMcTriangleTable` (src/util/tables.cpp:175-190). -/
def kMcTriangleTable_2 : List (List Int) := [
  [10, 3, 5, -1, -1, -1, -1, -1, -1, -1, -1, -1, -1, -1, -1, -1],
  [8, 0, 4, 5, 10, 3, -1, -1, -1, -1, -1, -1, -1, -1, -1, -1],
  [10, 1, 8, 3, 1, 10, -1, -1, -1, -1, -1, -1, -1, -1, -1, -1],
  [10, 0, 4, 10, 3, 0, 3, 1, 0, -1, -1, -1, -1, -1, -1, -1],
  [0, 9, 6, 5, 10, 3, -1, -1, -1, -1, -1, -1, -1, -1, -1, -1],
  [4, 9, 6, 4, 8, 9, 5, 10, 3, -1, -1, -1, -1, -1, -1, -1],
  [1, 10, 3, 1, 8, 10, 0, 9, 6, -1, -1, -1, -1, -1, -1, -1],
  [9, 3, 1, 9, 4, 3, 9, 6, 4, 4, 10, 3, -1, -1, -1, -1],
  [7, 9, 1, 3, 5, 10, -1, -1, -1, -1, -1, -1, -1, -1, -1, -1],
  [9, 1, 7, 8, 0, 4, 3, 5, 10, -1, -1, -1, -1, -1, -1, -1],
  [7, 10, 3, 7, 9, 10, 9, 8, 10, -1, -1, -1, -1, -1, -1, -1],
  [7, 10, 3, 9, 10, 7, 9, 4, 10, 9, 0, 4, -1, -1, -1, -1],
  [1, 6, 0, 1, 7, 6, 3, 5, 10, -1, -1, -1, -1, -1, -1, -1],
  [3, 5, 10, 1, 7, 8, 7, 4, 8, 7, 6, 4, -1, -1, -1, -1],
  [0, 8, 10, 0, 10, 7, 0, 7, 6, 3, 7, 10, -1, -1, -1, -1],
  [10, 3, 7, 10, 7, 4, 4, 7, 6, -1, -1, -1, -1, -1, -1, -1]]

/-- Rows 48..63 of `kMcTriangleTable` (src/util/tables.cpp:191-206). -/
def kMcTriangleTable_3 : List (List Int) := [
  [3, 4, 2, 5, 4, 3, -1, -1, -1, -1, -1, -1, -1, -1, -1, -1],
  [8, 3, 5, 8, 0, 3, 0, 2, 3, -1, -1, -1, -1, -1, -1, -1],
  [4, 1, 8, 4, 2, 1, 2, 3, 1, -1, -1, -1, -1, -1, -1, -1],
  [0, 2, 1, 2, 3, 1, -1, -1, -1, -1, -1, -1, -1, -1, -1, -1],
  [4, 3, 5, 4, 2, 3, 6, 0, 9, -1, -1, -1, -1, -1, -1, -1],
  [6, 2, 3, 6, 3, 8, 6, 8, 9, 5, 8, 3, -1, -1, -1, -1],
  [9, 6, 0, 1, 8, 2, 1, 2, 3, 2, 8, 4, -1, -1, -1, -1],
  [9, 6, 2, 9, 2, 1, 1, 2, 3, -1, -1, -1, -1, -1, -1, -1],
  [3, 4, 2, 3, 5, 4, 1, 7, 9, -1, -1, -1, -1, -1, -1, -1],
  [9, 1, 7, 8, 0, 5, 0, 3, 5, 0, 2, 3, -1, -1, -1, -1],
  [4, 9, 8, 4, 3, 9, 4, 2, 3, 3, 7, 9, -1, -1, -1, -1],
  [7, 9, 0, 7, 0, 3, 3, 0, 2, -1, -1, -1, -1, -1, -1, -1],
  [2, 5, 4, 2, 3, 5, 0, 1, 6, 1, 7, 6, -1, -1, -1, -1], [7, 6, 8, 7, 8, 1, 6, 2, 8, 5, 8, 3, 2, 3, 8, -1],
  [2, 3, 8, 2, 8, 4, 3, 7, 8, 0, 8, 6, 7, 6, 8, -1],
  [7, 6, 2, 3, 7, 2, -1, -1, -1, -1, -1, -1, -1, -1, -1, -1]]

/-- Rows 64..79 of `kMcTriangleTable` (src/util/tables.cpp:207-222). -/
def kMcTriangleTable_4 : List (List Int) := [
  [6, 11, 2, -1, -1, -1, -1, -1, -1, -1, -1, -1, -1, -1, -1, -1],
  [6, 11, 2, 0, 4, 8, -1, -1, -1, -1, -1, -1, -1, -1, -1, -1],
  [6, 11, 2, 1, 8, 5, -1, -1, -1, -1, -1, -1, -1, -1, -1, -1],
  [0, 5, 1, 0, 4, 5, 2, 6, 11, -1, -1, -1, -1, -1, -1, -1],
  [0, 11, 2, 9, 11, 0, -1, -1, -1, -1, -1, -1, -1, -1, -1, -1],
  [4, 11, 2, 4, 8, 11, 8, 9, 11, -1, -1, -1, -1, -1, -1, -1],
  [0, 11, 2, 0, 9, 11, 1, 8, 5, -1, -1, -1, -1, -1, -1, -1],
  [1, 9, 11, 1, 11, 4, 1, 4, 5, 2, 4, 11, -1, -1, -1, -1],
  [9, 1, 7, 6, 11, 2, -1, -1, -1, -1, -1, -1, -1, -1, -1, -1],
  [8, 0, 4, 9, 1, 7, 2, 6, 11, -1, -1, -1, -1, -1, -1, -1],
  [7, 8, 5, 7, 9, 8, 6, 11, 2, -1, -1, -1, -1, -1, -1, -1],
  [2, 6, 11, 0, 4, 9, 4, 7, 9, 4, 5, 7, -1, -1, -1, -1],
  [11, 1, 7, 11, 2, 1, 2, 0, 1, -1, -1, -1, -1, -1, -1, -1],
  [1, 7, 11, 8, 1, 11, 8, 11, 2, 8, 2, 4, -1, -1, -1, -1],
  [11, 2, 0, 11, 0, 5, 11, 5, 7, 5, 0, 8, -1, -1, -1, -1],
  [11, 2, 4, 11, 4, 7, 7, 4, 5, -1, -1, -1, -1, -1, -1, -1]]

/-- Rows 80..95 of `kMcTriangleTable` (src/util/tables.cpp:223-238). -/
def kMcTriangleTable_5 : List (List Int) := [
  [6, 10, 4, 11, 10, 6, -1, -1, -1, -1, -1, -1, -1, -1, -1, -1],
  [6, 8, 0, 6, 11, 8, 11, 10, 8, -1, -1, -1, -1, -1, -1, -1],
  [10, 6, 11, 10, 4, 6, 8, 5, 1, -1, -1, -1, -1, -1, -1, -1],
  [6, 11, 10, 6, 10, 1, 6, 1, 0, 1, 10, 5, -1, -1, -1, -1],
  [0, 10, 4, 0, 9, 10, 9, 11, 10, -1, -1, -1, -1, -1, -1, -1],
  [9, 11, 8, 8, 11, 10, -1, -1, -1, -1, -1, -1, -1, -1, -1, -1],
  [1, 8, 5, 0, 9, 4, 9, 10, 4, 9, 11, 10, -1, -1, -1, -1],
  [5, 1, 9, 5, 9, 10, 10, 9, 11, -1, -1, -1, -1, -1, -1, -1],
  [6, 10, 4, 6, 11, 10, 7, 9, 1, -1, -1, -1, -1, -1, -1, -1],
  [7, 9, 1, 6, 11, 0, 11, 8, 0, 11, 10, 8, -1, -1, -1, -1],
  [6, 11, 4, 4, 11, 10, 7, 9, 8, 7, 8, 5, -1, -1, -1, -1],
  [11, 10, 0, 11, 0, 6, 10, 5, 0, 9, 0, 7, 5, 7, 0, -1],
  [4, 0, 1, 4, 1, 11, 4, 11, 10, 7, 11, 1, -1, -1, -1, -1],
  [1, 7, 11, 1, 11, 8, 8, 11, 10, -1, -1, -1, -1, -1, -1, -1],
  [5, 7, 0, 5, 0, 8, 7, 11, 0, 4, 0, 10, 11, 10, 0, -1],
  [5, 7, 11, 10, 5, 11, -1, -1, -1, -1, -1, -1, -1, -1, -1, -1]]

/-- Rows 96..111 of `kMcTriangleTable` (src/util/tables.cpp:239-254). -/
def kMcTriangleTable_6 : List (List Int) := [
  [2, 6, 11, 10, 3, 5, -1, -1, -1, -1, -1, -1, -1, -1, -1, -1],
  [0, 4, 8, 2, 6, 11, 5, 10, 3, -1, -1, -1, -1, -1, -1, -1],
  [10, 1, 8, 10, 3, 1, 11, 2, 6, -1, -1, -1, -1, -1, -1, -1],
  [6, 11, 2, 0, 4, 3, 0, 3, 1, 3, 4, 10, -1, -1, -1, -1],
  [11, 0, 9, 11, 2, 0, 10, 3, 5, -1, -1, -1, -1, -1, -1, -1],
  [5, 10, 3, 4, 8, 2, 8, 11, 2, 8, 9, 11, -1, -1, -1, -1],
  [8, 3, 1, 8, 10, 3, 9, 11, 0, 11, 2, 0, -1, -1, -1, -1],
  [3, 1, 4, 3, 4, 10, 1, 9, 4, 2, 4, 11, 9, 11, 4, -1],
  [6, 11, 2, 7, 9, 1, 10, 3, 5, -1, -1, -1, -1, -1, -1, -1],
  [3, 5, 10, 9, 1, 7, 0, 4, 8, 2, 6, 11, -1, -1, -1, -1],
  [6, 11, 2, 7, 9, 3, 9, 10, 3, 9, 8, 10, -1, -1, -1, -1],
  [9, 3, 7, 9, 10, 3, 9, 0, 10, 4, 10, 0, 6, 11, 2, -1],
  [10, 3, 5, 11, 2, 7, 2, 1, 7, 2, 0, 1, -1, -1, -1, -1],
  [8, 2, 4, 8, 11, 2, 8, 1, 11, 7, 11, 1, 5, 10, 3, -1],
  [2, 0, 7, 2, 7, 11, 0, 8, 7, 3, 7, 10, 8, 10, 7, -1],
  [10, 3, 7, 10, 7, 4, 11, 2, 7, 2, 4, 7, -1, -1, -1, -1]]

/-- Rows 112..127 of `kMcTriangleTable` (src/util/tables.cpp:255-270). -/
def kMcTriangleTable_7 : List (List Int) := [
  [3, 6, 11, 3, 5, 6, 5, 4, 6, -1, -1, -1, -1, -1, -1, -1],
  [8, 3, 5, 0, 3, 8, 0, 11, 3, 0, 6, 11, -1, -1, -1, -1],
  [11, 4, 6, 11, 1, 4, 11, 3, 1, 8, 4, 1, -1, -1, -1, -1],
  [6, 11, 3, 6, 3, 0, 0, 3, 1, -1, -1, -1, -1, -1, -1, -1],
  [0, 5, 4, 0, 11, 5, 0, 9, 11, 11, 3, 5, -1, -1, -1, -1],
  [3, 5, 8, 3, 8, 11, 11, 8, 9, -1, -1, -1, -1, -1, -1, -1],
  [9, 11, 4, 9, 4, 0, 11, 3, 4, 8, 4, 1, 3, 1, 4, -1],
  [9, 11, 3, 1, 9, 3, -1, -1, -1, -1, -1, -1, -1, -1, -1, -1],
  [9, 1, 7, 6, 11, 5, 6, 5, 4, 5, 11, 3, -1, -1, -1, -1],
  [0, 5, 8, 0, 3, 5, 0, 6, 3, 11, 3, 6, 9, 1, 7, -1], [9, 8, 3, 9, 3, 7, 8, 4, 3, 11, 3, 6, 4, 6, 3, -1],
  [7, 9, 0, 7, 0, 3, 6, 11, 0, 11, 3, 0, -1, -1, -1, -1],
  [5, 4, 11, 5, 11, 3, 4, 0, 11, 7, 11, 1, 0, 1, 11, -1],
  [3, 5, 8, 3, 8, 11, 1, 7, 8, 7, 11, 8, -1, -1, -1, -1],
  [0, 8, 4, 11, 3, 7, -1, -1, -1, -1, -1, -1, -1, -1, -1, -1],
  [7, 11, 3, -1, -1, -1, -1, -1, -1, -1, -1, -1, -1, -1, -1, -1]]

/-- Rows 128..143 of `kMcTriangleTable` (src/util/tables.cpp:271-286). -/
def kMcTriangleTable_8 : List (List Int) := [
  [7, 3, 11, -1, -1, -1, -1, -1, -1, -1, -1, -1, -1, -1, -1, -1],
  [0, 4, 8, 11, 7, 3, -1, -1, -1, -1, -1, -1, -1, -1, -1, -1],
  [1, 8, 5, 7, 3, 11, -1, -1, -1, -1, -1, -1, -1, -1, -1, -1],
  [5, 0, 4, 5, 1, 0, 7, 3, 11, -1, -1, -1, -1, -1, -1, -1],
  [6, 0, 9, 11, 7, 3, -1, -1, -1, -1, -1, -1, -1, -1, -1, -1],
  [9, 4, 8, 9, 6, 4, 11, 7, 3, -1, -1, -1, -1, -1, -1, -1],
  [0, 9, 6, 1, 8, 5, 11, 7, 3, -1, -1, -1, -1, -1, -1, -1],
  [11, 7, 3, 9, 6, 1, 6, 5, 1, 6, 4, 5, -1, -1, -1, -1],
  [9, 3, 11, 1, 3, 9, -1, -1, -1, -1, -1, -1, -1, -1, -1, -1],
  [9, 3, 11, 9, 1, 3, 8, 0, 4, -1, -1, -1, -1, -1, -1, -1],
  [3, 8, 5, 3, 11, 8, 11, 9, 8, -1, -1, -1, -1, -1, -1, -1],
  [0, 4, 5, 0, 5, 11, 0, 11, 9, 11, 5, 3, -1, -1, -1, -1],
  [6, 3, 11, 6, 0, 3, 0, 1, 3, -1, -1, -1, -1, -1, -1, -1],
  [11, 6, 4, 11, 4, 1, 11, 1, 3, 8, 1, 4, -1, -1, -1, -1],
  [8, 5, 3, 0, 8, 3, 0, 3, 11, 0, 11, 6, -1, -1, -1, -1],
  [3, 11, 6, 3, 6, 5, 5, 6, 4, -1, -1, -1, -1, -1, -1, -1]]

/-- Rows 144..159 of `kMcTriangleTable` (src/util/tables.cpp:287-302). -/
def kMcTriangleTable_9 : List (List Int) := [
  [11, 7, 3, 2, 10, 4, -1, -1, -1, -1, -1, -1, -1, -1, -1, -1],
  [2, 8, 0, 2, 10, 8, 3, 11, 7, -1, -1, -1, -1, -1, -1, -1],
  [8, 5, 1, 10, 4, 2, 7, 3, 11, -1, -1, -1, -1, -1, -1, -1],
  [11, 7, 3, 2, 10, 1, 2, 1, 0, 1, 10, 5, -1, -1, -1, -1],
  [9, 6, 0, 11, 7, 3, 4, 2, 10, -1, -1, -1, -1, -1, -1, -1],
  [7, 3, 11, 9, 6, 10, 9, 10, 8, 10, 6, 2, -1, -1, -1, -1],
  [0, 9, 6, 2, 10, 4, 1, 8, 5, 11, 7, 3, -1, -1, -1, -1],
  [6, 1, 9, 6, 5, 1, 6, 2, 5, 10, 5, 2, 11, 7, 3, -1],
  [3, 9, 1, 3, 11, 9, 2, 10, 4, -1, -1, -1, -1, -1, -1, -1],
  [9, 1, 11, 11, 1, 3, 8, 0, 2, 8, 2, 10, -1, -1, -1, -1],
  [4, 2, 10, 8, 5, 11, 8, 11, 9, 11, 5, 3, -1, -1, -1, -1],
  [11, 9, 5, 11, 5, 3, 9, 0, 5, 10, 5, 2, 0, 2, 5, -1],
  [4, 2, 10, 6, 0, 11, 0, 3, 11, 0, 1, 3, -1, -1, -1, -1],
  [10, 8, 6, 10, 6, 2, 8, 1, 6, 11, 6, 3, 1, 3, 6, -1],
  [0, 11, 6, 0, 3, 11, 0, 8, 3, 5, 3, 8, 4, 2, 10, -1],
  [3, 11, 6, 3, 6, 5, 2, 10, 6, 10, 5, 6, -1, -1, -1, -1]]

/-- Rows 160..175 of `kMcTriangleTable` (src/util/tables.cpp:303-318). -/
def kMcTriangleTable_10 : List (List Int) := [
  [5, 11, 7, 10, 11, 5, -1, -1, -1, -1, -1, -1, -1, -1, -1, -1],
  [5, 11, 7, 5, 10, 11, 4, 8, 0, -1, -1, -1, -1, -1, -1, -1],
  [1, 11, 7, 1, 8, 11, 8, 10, 11, -1, -1, -1, -1, -1, -1, -1],
  [4, 1, 0, 4, 11, 1, 4, 10, 11, 7, 1, 11, -1, -1, -1, -1],
  [11, 5, 10, 11, 7, 5, 9, 6, 0, -1, -1, -1, -1, -1, -1, -1],
  [7, 10, 11, 7, 5, 10, 6, 4, 9, 4, 8, 9, -1, -1, -1, -1],
  [6, 0, 9, 11, 7, 8, 11, 8, 10, 8, 7, 1, -1, -1, -1, -1],
  [6, 4, 1, 6, 1, 9, 4, 10, 1, 7, 1, 11, 10, 11, 1, -1],
  [5, 9, 1, 5, 10, 9, 10, 11, 9, -1, -1, -1, -1, -1, -1, -1],
  [0, 4, 8, 9, 1, 10, 9, 10, 11, 10, 1, 5, -1, -1, -1, -1],
  [9, 8, 11, 8, 10, 11, -1, -1, -1, -1, -1, -1, -1, -1, -1, -1],
  [0, 4, 10, 0, 10, 9, 9, 10, 11, -1, -1, -1, -1, -1, -1, -1],
  [6, 10, 11, 6, 1, 10, 6, 0, 1, 1, 5, 10, -1, -1, -1, -1],
  [10, 11, 1, 10, 1, 5, 11, 6, 1, 8, 1, 4, 6, 4, 1, -1],
  [6, 0, 8, 6, 8, 11, 11, 8, 10, -1, -1, -1, -1, -1, -1, -1],
  [6, 4, 10, 11, 6, 10, -1, -1, -1, -1, -1, -1, -1, -1, -1, -1]]

/-- Rows 176..191 of `kMcTriangleTable` (src/util/tables.cpp:319-334). -/
def kMcTriangleTable_11 : List (List Int) := [
  [11, 4, 2, 11, 7, 4, 7, 5, 4, -1, -1, -1, -1, -1, -1, -1],
  [11, 0, 2, 11, 5, 0, 11, 7, 5, 5, 8, 0, -1, -1, -1, -1],
  [1, 11, 7, 8, 11, 1, 8, 2, 11, 8, 4, 2, -1, -1, -1, -1],
  [11, 7, 1, 11, 1, 2, 2, 1, 0, -1, -1, -1, -1, -1, -1, -1],
  [0, 9, 6, 4, 2, 7, 4, 7, 5, 7, 2, 11, -1, -1, -1, -1],
  [7, 5, 2, 7, 2, 11, 5, 8, 2, 6, 2, 9, 8, 9, 2, -1], [8, 7, 1, 8, 11, 7, 8, 4, 11, 2, 11, 4, 0, 9, 6, -1],
  [11, 7, 1, 11, 1, 2, 9, 6, 1, 6, 2, 1, -1, -1, -1, -1],
  [1, 11, 9, 1, 4, 11, 1, 5, 4, 2, 11, 4, -1, -1, -1, -1],
  [0, 2, 5, 0, 5, 8, 2, 11, 5, 1, 5, 9, 11, 9, 5, -1],
  [4, 2, 11, 4, 11, 8, 8, 11, 9, -1, -1, -1, -1, -1, -1, -1],
  [0, 2, 11, 9, 0, 11, -1, -1, -1, -1, -1, -1, -1, -1, -1, -1],
  [0, 1, 11, 0, 11, 6, 1, 5, 11, 2, 11, 4, 5, 4, 11, -1],
  [6, 2, 11, 1, 5, 8, -1, -1, -1, -1, -1, -1, -1, -1, -1, -1],
  [4, 2, 11, 4, 11, 8, 6, 0, 11, 0, 8, 11, -1, -1, -1, -1],
  [6, 2, 11, -1, -1, -1, -1, -1, -1, -1, -1, -1, -1, -1, -1, -1]]

/-- Rows 192..207 of `kMcTriangleTable` (src/util/tables.cpp:335-350). -/
def kMcTriangleTable_12 : List (List Int) := [
  [7, 2, 6, 3, 2, 7, -1, -1, -1, -1, -1, -1, -1, -1, -1, -1],
  [2, 7, 3, 2, 6, 7, 0, 4, 8, -1, -1, -1, -1, -1, -1, -1],
  [7, 2, 6, 7, 3, 2, 5, 1, 8, -1, -1, -1, -1, -1, -1, -1],
  [0, 4, 1, 1, 4, 5, 2, 6, 7, 2, 7, 3, -1, -1, -1, -1],
  [7, 0, 9, 7, 3, 0, 3, 2, 0, -1, -1, -1, -1, -1, -1, -1],
  [4, 8, 9, 4, 9, 3, 4, 3, 2, 3, 9, 7, -1, -1, -1, -1],
  [8, 5, 1, 0, 9, 3, 0, 3, 2, 3, 9, 7, -1, -1, -1, -1], [3, 2, 9, 3, 9, 7, 2, 4, 9, 1, 9, 5, 4, 5, 9, -1],
  [9, 2, 6, 9, 1, 2, 1, 3, 2, -1, -1, -1, -1, -1, -1, -1],
  [8, 0, 4, 9, 1, 6, 1, 2, 6, 1, 3, 2, -1, -1, -1, -1],
  [6, 3, 2, 6, 8, 3, 6, 9, 8, 5, 3, 8, -1, -1, -1, -1], [4, 5, 9, 4, 9, 0, 5, 3, 9, 6, 9, 2, 3, 2, 9, -1],
  [0, 1, 2, 2, 1, 3, -1, -1, -1, -1, -1, -1, -1, -1, -1, -1],
  [4, 8, 1, 4, 1, 2, 2, 1, 3, -1, -1, -1, -1, -1, -1, -1],
  [8, 5, 3, 8, 3, 0, 0, 3, 2, -1, -1, -1, -1, -1, -1, -1],
  [3, 2, 4, 5, 3, 4, -1, -1, -1, -1, -1, -1, -1, -1, -1, -1]]

/-- Rows 208..223 of `kMcTriangleTable` (src/util/tables.cpp:351-366). -/
def kMcTriangleTable_13 : List (List Int) := [
  [10, 7, 3, 10, 4, 7, 4, 6, 7, -1, -1, -1, -1, -1, -1, -1],
  [0, 10, 8, 0, 7, 10, 0, 6, 7, 3, 10, 7, -1, -1, -1, -1],
  [1, 8, 5, 7, 3, 4, 7, 4, 6, 4, 3, 10, -1, -1, -1, -1],
  [1, 0, 10, 1, 10, 5, 0, 6, 10, 3, 10, 7, 6, 7, 10, -1],
  [7, 3, 10, 9, 7, 10, 9, 10, 4, 9, 4, 0, -1, -1, -1, -1],
  [7, 3, 10, 7, 10, 9, 9, 10, 8, -1, -1, -1, -1, -1, -1, -1],
  [9, 4, 0, 9, 10, 4, 9, 7, 10, 3, 10, 7, 1, 8, 5, -1],
  [5, 1, 9, 5, 9, 10, 7, 3, 9, 3, 10, 9, -1, -1, -1, -1],
  [9, 1, 3, 9, 3, 4, 9, 4, 6, 4, 3, 10, -1, -1, -1, -1],
  [1, 3, 6, 1, 6, 9, 3, 10, 6, 0, 6, 8, 10, 8, 6, -1], [4, 6, 3, 4, 3, 10, 6, 9, 3, 5, 3, 8, 9, 8, 3, -1],
  [0, 6, 9, 5, 3, 10, -1, -1, -1, -1, -1, -1, -1, -1, -1, -1],
  [10, 4, 0, 10, 0, 3, 3, 0, 1, -1, -1, -1, -1, -1, -1, -1],
  [10, 8, 1, 3, 10, 1, -1, -1, -1, -1, -1, -1, -1, -1, -1, -1],
  [10, 4, 0, 10, 0, 3, 8, 5, 0, 5, 3, 0, -1, -1, -1, -1],
  [10, 5, 3, -1, -1, -1, -1, -1, -1, -1, -1, -1, -1, -1, -1, -1]]

/-- Rows 224..239 of `kMcTriangleTable` (src/util/tables.cpp:367-382). -/
def kMcTriangleTable_14 : List (List Int) := [
  [2, 5, 10, 2, 6, 5, 6, 7, 5, -1, -1, -1, -1, -1, -1, -1],
  [0, 4, 8, 2, 6, 10, 6, 5, 10, 6, 7, 5, -1, -1, -1, -1],
  [1, 6, 7, 1, 10, 6, 1, 8, 10, 10, 2, 6, -1, -1, -1, -1],
  [6, 7, 10, 6, 10, 2, 7, 1, 10, 4, 10, 0, 1, 0, 10, -1],
  [9, 7, 5, 9, 5, 2, 9, 2, 0, 10, 2, 5, -1, -1, -1, -1],
  [8, 9, 2, 8, 2, 4, 9, 7, 2, 10, 2, 5, 7, 5, 2, -1], [8, 10, 7, 8, 7, 1, 10, 2, 7, 9, 7, 0, 2, 0, 7, -1],
  [9, 7, 1, 4, 10, 2, -1, -1, -1, -1, -1, -1, -1, -1, -1, -1],
  [2, 5, 10, 6, 5, 2, 6, 1, 5, 6, 9, 1, -1, -1, -1, -1],
  [6, 10, 2, 6, 5, 10, 6, 9, 5, 1, 5, 9, 0, 4, 8, -1],
  [2, 6, 9, 2, 9, 10, 10, 9, 8, -1, -1, -1, -1, -1, -1, -1],
  [2, 6, 9, 2, 9, 10, 0, 4, 9, 4, 10, 9, -1, -1, -1, -1],
  [5, 10, 2, 5, 2, 1, 1, 2, 0, -1, -1, -1, -1, -1, -1, -1],
  [5, 10, 2, 5, 2, 1, 4, 8, 2, 8, 1, 2, -1, -1, -1, -1],
  [2, 0, 8, 10, 2, 8, -1, -1, -1, -1, -1, -1, -1, -1, -1, -1],
  [2, 4, 10, -1, -1, -1, -1, -1, -1, -1, -1, -1, -1, -1, -1, -1]]

/-- Rows 240..255 of `kMcTriangleTable` (src/util/tables.cpp:383-398). -/
def kMcTriangleTable_15 : List (List Int) := [
  [6, 7, 4, 7, 5, 4, -1, -1, -1, -1, -1, -1, -1, -1, -1, -1],
  [8, 0, 6, 8, 6, 5, 5, 6, 7, -1, -1, -1, -1, -1, -1, -1],
  [1, 8, 4, 1, 4, 7, 7, 4, 6, -1, -1, -1, -1, -1, -1, -1],
  [6, 7, 1, 0, 6, 1, -1, -1, -1, -1, -1, -1, -1, -1, -1, -1],
  [0, 9, 7, 0, 7, 4, 4, 7, 5, -1, -1, -1, -1, -1, -1, -1],
  [8, 9, 7, 5, 8, 7, -1, -1, -1, -1, -1, -1, -1, -1, -1, -1],
  [1, 8, 4, 1, 4, 7, 0, 9, 4, 9, 7, 4, -1, -1, -1, -1],
  [9, 7, 1, -1, -1, -1, -1, -1, -1, -1, -1, -1, -1, -1, -1, -1],
  [9, 1, 5, 9, 5, 6, 6, 5, 4, -1, -1, -1, -1, -1, -1, -1],
  [8, 0, 6, 8, 6, 5, 9, 1, 6, 1, 5, 6, -1, -1, -1, -1],
  [9, 8, 4, 6, 9, 4, -1, -1, -1, -1, -1, -1, -1, -1, -1, -1],
  [0, 6, 9, -1, -1, -1, -1, -1, -1, -1, -1, -1, -1, -1, -1, -1],
  [0, 1, 5, 4, 0, 5, -1, -1, -1, -1, -1, -1, -1, -1, -1, -1],
  [8, 1, 5, -1, -1, -1, -1, -1, -1, -1, -1, -1, -1, -1, -1, -1],
  [0, 8, 4, -1, -1, -1, -1, -1, -1, -1, -1, -1, -1, -1, -1, -1],
  [-1, -1, -1, -1, -1, -1, -1, -1, -1, -1, -1, -1, -1, -1, -1, -1]]

/-- `kMcTriangleTable` (src/util/tables.cpp:142-399), all 256 rows. -/
def kMcTriangleTable : List (List Int) :=
  kMcTriangleTable_0 ++ kMcTriangleTable_1 ++ kMcTriangleTable_2 ++ kMcTriangleTable_3 ++
  kMcTriangleTable_4 ++ kMcTriangleTable_5 ++ kMcTriangleTable_6 ++ kMcTriangleTable_7 ++
  kMcTriangleTable_8 ++ kMcTriangleTable_9 ++ kMcTriangleTable_10 ++ kMcTriangleTable_11 ++
  kMcTriangleTable_12 ++ kMcTriangleTable_13 ++ kMcTriangleTable_14 ++ kMcTriangleTable_15

/-- Rows 0..15 of `kMdcEdgeSetIndex` (src/util/tables.cpp:404-419). -/
def kMdcEdgeSetIndex_0 : List (List Int) := [
  [-1, -1, -1, -1, -1, -1, -1, -1, -1, -1, -1, -1], [0, -1, -1, -1, 0, -1, -1, -1, 0, -1, -1, -1],
  [-1, 0, -1, -1, -1, 0, -1, -1, 0, -1, -1, -1], [0, 0, -1, -1, 0, 0, -1, -1, -1, -1, -1, -1],
  [0, -1, -1, -1, -1, -1, 0, -1, -1, 0, -1, -1], [-1, -1, -1, -1, 0, -1, 0, -1, 0, 0, -1, -1],
  [1, 0, -1, -1, -1, 0, 1, -1, 0, 1, -1, -1], [-1, 0, -1, -1, 0, 0, 0, -1, -1, 0, -1, -1],
  [-1, 0, -1, -1, -1, -1, -1, 0, -1, 0, -1, -1], [0, 1, -1, -1, 0, -1, -1, 1, 0, 1, -1, -1],
  [-1, -1, -1, -1, -1, 0, -1, 0, 0, 0, -1, -1], [0, -1, -1, -1, 0, 0, -1, 0, -1, 0, -1, -1],
  [0, 0, -1, -1, -1, -1, 0, 0, -1, -1, -1, -1], [-1, 0, -1, -1, 0, -1, 0, 0, 0, -1, -1, -1],
  [0, -1, -1, -1, -1, 0, 0, 0, 0, -1, -1, -1], [-1, -1, -1, -1, 0, 0, 0, 0, -1, -1, -1, -1]]

/-- Rows 16..31 of `kMdcEdgeSetIndex` (src/util/tables.cpp:420-435). -/
def kMdcEdgeSetIndex_1 : List (List Int) := [
  [-1, -1, 0, -1, 0, -1, -1, -1, -1, -1, 0, -1], [0, -1, 0, -1, -1, -1, -1, -1, 0, -1, 0, -1],
  [-1, 0, 1, -1, 1, 0, -1, -1, 0, -1, 1, -1], [0, 0, 0, -1, -1, 0, -1, -1, -1, -1, 0, -1],
  [0, -1, 1, -1, 1, -1, 0, -1, -1, 0, 1, -1], [-1, -1, 0, -1, -1, -1, 0, -1, 0, 0, 0, -1],
  [1, 0, 2, -1, 2, 0, 1, -1, 0, 1, 2, -1], [-1, 0, 0, -1, -1, 0, 0, -1, -1, 0, 0, -1],
  [-1, 0, 1, -1, 1, -1, -1, 0, -1, 0, 1, -1], [0, 1, 0, -1, -1, -1, -1, 1, 0, 1, 0, -1],
  [-1, -1, 1, -1, 1, 0, -1, 0, 0, 0, 1, -1], [0, -1, 0, -1, -1, 0, -1, 0, -1, 0, 0, -1],
  [0, 0, 1, -1, 1, -1, 0, 0, -1, -1, 1, -1], [-1, 0, 0, -1, -1, -1, 0, 0, 0, -1, 0, -1],
  [0, -1, 1, -1, 1, 0, 0, 0, 0, -1, 1, -1], [-1, -1, 0, -1, -1, 0, 0, 0, -1, -1, 0, -1]]

/-- Rows 32..47 of `kMdcEdgeSetIndex` (src/util/tables.cpp:436-451). -/
def kMdcEdgeSetIndex_2 : List (List Int) := [
  [-1, -1, -1, 0, -1, 0, -1, -1, -1, -1, 0, -1], [0, -1, -1, 1, 0, 1, -1, -1, 0, -1, 1, -1],
  [-1, 0, -1, 0, -1, -1, -1, -1, 0, -1, 0, -1], [0, 0, -1, 0, 0, -1, -1, -1, -1, -1, 0, -1],
  [0, -1, -1, 1, -1, 1, 0, -1, -1, 0, 1, -1], [-1, -1, -1, 1, 0, 1, 0, -1, 0, 0, 1, -1],
  [1, 0, -1, 0, -1, -1, 1, -1, 0, 1, 0, -1], [-1, 0, -1, 0, 0, -1, 0, -1, -1, 0, 0, -1],
  [-1, 0, -1, 1, -1, 1, -1, 0, -1, 0, 1, -1], [0, 1, -1, 2, 0, 2, -1, 1, 0, 1, 2, -1],
  [-1, -1, -1, 0, -1, -1, -1, 0, 0, 0, 0, -1], [0, -1, -1, 0, 0, -1, -1, 0, -1, 0, 0, -1],
  [0, 0, -1, 1, -1, 1, 0, 0, -1, -1, 1, -1], [-1, 0, -1, 1, 0, 1, 0, 0, 0, -1, 1, -1],
  [0, -1, -1, 0, -1, -1, 0, 0, 0, -1, 0, -1], [-1, -1, -1, 0, 0, -1, 0, 0, -1, -1, 0, -1]]

/-- Rows 48..63 of `kMdcEdgeSetIndex` (src/util/tables.cpp:452-467). -/
def kMdcEdgeSetIndex_3 : List (List Int) := [
  [-1, -1, 0, 0, 0, 0, -1, -1, -1, -1, -1, -1], [0, -1, 0, 0, -1, 0, -1, -1, 0, -1, -1, -1],
  [-1, 0, 0, 0, 0, -1, -1, -1, 0, -1, -1, -1], [0, 0, 0, 0, -1, -1, -1, -1, -1, -1, -1, -1],
  [0, -1, 1, 1, 1, 1, 0, -1, -1, 0, -1, -1], [-1, -1, 0, 0, -1, 0, 0, -1, 0, 0, -1, -1],
  [0, 1, 1, 1, 1, -1, 0, -1, 1, 0, -1, -1], [-1, 0, 0, 0, -1, -1, 0, -1, -1, 0, -1, -1],
  [-1, 0, 1, 1, 1, 1, -1, 0, -1, 0, -1, -1], [1, 0, 1, 1, -1, 1, -1, 0, 1, 0, -1, -1],
  [-1, -1, 0, 0, 0, -1, -1, 0, 0, 0, -1, -1], [0, -1, 0, 0, -1, -1, -1, 0, -1, 0, -1, -1],
  [0, 0, 1, 1, 1, 1, 0, 0, -1, -1, -1, -1], [-1, 0, 0, 0, -1, 0, 0, 0, 0, -1, -1, -1],
  [0, -1, 0, 0, 0, -1, 0, 0, 0, -1, -1, -1], [-1, -1, 0, 0, -1, -1, 0, 0, -1, -1, -1, -1]]

/-- Rows 64..79 of `kMdcEdgeSetIndex` (src/util/tables.cpp:468-483). -/
def kMdcEdgeSetIndex_4 : List (List Int) := [
  [-1, -1, 0, -1, -1, -1, 0, -1, -1, -1, -1, 0], [0, -1, 1, -1, 0, -1, 1, -1, 0, -1, -1, 1],
  [-1, 0, 1, -1, -1, 0, 1, -1, 0, -1, -1, 1], [0, 0, 1, -1, 0, 0, 1, -1, -1, -1, -1, 1],
  [0, -1, 0, -1, -1, -1, -1, -1, -1, 0, -1, 0], [-1, -1, 0, -1, 0, -1, -1, -1, 0, 0, -1, 0],
  [1, 0, 1, -1, -1, 0, -1, -1, 0, 1, -1, 1], [-1, 0, 0, -1, 0, 0, -1, -1, -1, 0, -1, 0],
  [-1, 0, 1, -1, -1, -1, 1, 0, -1, 0, -1, 1], [0, 1, 2, -1, 0, -1, 2, 1, 0, 1, -1, 2],
  [-1, -1, 1, -1, -1, 0, 1, 0, 0, 0, -1, 1], [0, -1, 1, -1, 0, 0, 1, 0, -1, 0, -1, 1],
  [0, 0, 0, -1, -1, -1, -1, 0, -1, -1, -1, 0], [-1, 0, 0, -1, 0, -1, -1, 0, 0, -1, -1, 0],
  [0, -1, 0, -1, -1, 0, -1, 0, 0, -1, -1, 0], [-1, -1, 0, -1, 0, 0, -1, 0, -1, -1, -1, 0]]

/-- Rows 80..95 of `kMdcEdgeSetIndex` (src/util/tables.cpp:484-499). -/
def kMdcEdgeSetIndex_5 : List (List Int) := [
  [-1, -1, -1, -1, 0, -1, 0, -1, -1, -1, 0, 0], [0, -1, -1, -1, -1, -1, 0, -1, 0, -1, 0, 0],
  [-1, 0, -1, -1, 1, 0, 1, -1, 0, -1, 1, 1], [0, 0, -1, -1, -1, 0, 0, -1, -1, -1, 0, 0],
  [0, -1, -1, -1, 0, -1, -1, -1, -1, 0, 0, 0], [-1, -1, -1, -1, -1, -1, -1, -1, 0, 0, 0, 0],
  [1, 0, -1, -1, 1, 0, -1, -1, 0, 1, 1, 1], [-1, 0, -1, -1, -1, 0, -1, -1, -1, 0, 0, 0],
  [-1, 0, -1, -1, 1, -1, 1, 0, -1, 0, 1, 1], [0, 1, -1, -1, -1, -1, 0, 1, 0, 1, 0, 0],
  [-1, -1, -1, -1, 1, 0, 1, 0, 0, 0, 1, 1], [0, -1, -1, -1, -1, 0, 0, 0, -1, 0, 0, 0],
  [0, 0, -1, -1, 0, -1, -1, 0, -1, -1, 0, 0], [-1, 0, -1, -1, -1, -1, -1, 0, 0, -1, 0, 0],
  [0, -1, -1, -1, 0, 0, -1, 0, 0, -1, 0, 0], [-1, -1, -1, -1, -1, 0, -1, 0, -1, -1, 0, 0]]

/-- Rows 96..111 of `kMdcEdgeSetIndex` (src/util/tables.cpp:500-515). -/
def kMdcEdgeSetIndex_6 : List (List Int) := [
  [-1, -1, 1, 0, -1, 0, 1, -1, -1, -1, 0, 1], [0, -1, 2, 1, 0, 1, 2, -1, 0, -1, 1, 2],
  [-1, 0, 1, 0, -1, -1, 1, -1, 0, -1, 0, 1], [0, 0, 1, 0, 0, -1, 1, -1, -1, -1, 0, 1],
  [0, -1, 0, 1, -1, 1, -1, -1, -1, 0, 1, 0], [-1, -1, 0, 1, 0, 1, -1, -1, 0, 0, 1, 0],
  [1, 0, 1, 0, -1, -1, -1, -1, 0, 1, 0, 1], [-1, 0, 0, 0, 0, -1, -1, -1, -1, 0, 0, 0],
  [-1, 0, 2, 1, -1, 1, 2, 0, -1, 0, 1, 2], [0, 1, 3, 2, 0, 2, 3, 1, 0, 1, 2, 3],
  [-1, -1, 1, 0, -1, -1, 1, 0, 0, 0, 0, 1], [0, -1, 1, 0, 0, -1, 1, 0, -1, 0, 0, 1],
  [0, 0, 0, 1, -1, 1, -1, 0, -1, -1, 1, 0], [-1, 0, 0, 1, 0, 1, -1, 0, 0, -1, 1, 0],
  [0, -1, 0, 0, -1, -1, -1, 0, 0, -1, 0, 0], [-1, -1, 0, 0, 0, -1, -1, 0, -1, -1, 0, 0]]

/-- Rows 112..127 of `kMdcEdgeSetIndex` (src/util/tables.cpp:516-531). -/
def kMdcEdgeSetIndex_7 : List (List Int) := [
  [-1, -1, -1, 0, 0, 0, 0, -1, -1, -1, -1, 0], [0, -1, -1, 0, -1, 0, 0, -1, 0, -1, -1, 0],
  [-1, 0, -1, 0, 0, -1, 0, -1, 0, -1, -1, 0], [0, 0, -1, 0, -1, -1, 0, -1, -1, -1, -1, 0],
  [0, -1, -1, 0, 0, 0, -1, -1, -1, 0, -1, 0], [-1, -1, -1, 0, -1, 0, -1, -1, 0, 0, -1, 0],
  [0, 0, -1, 0, 0, -1, -1, -1, 0, 0, -1, 0], [-1, 0, -1, 0, -1, -1, -1, -1, -1, 0, -1, 0],
  [-1, 0, -1, 1, 1, 1, 1, 0, -1, 0, -1, 1], [0, 1, -1, 0, -1, 0, 0, 1, 0, 1, -1, 0],
  [-1, -1, -1, 0, 0, -1, 0, 0, 0, 0, -1, 0], [0, -1, -1, 0, -1, -1, 0, 0, -1, 0, -1, 0],
  [0, 0, -1, 0, 0, 0, -1, 0, -1, -1, -1, 0], [-1, 0, -1, 0, -1, 0, -1, 0, 0, -1, -1, 0],
  [0, -1, -1, 0, 0, -1, -1, 0, 0, -1, -1, 0], [-1, -1, -1, 0, -1, -1, -1, 0, -1, -1, -1, 0]]

/-- Rows 128..143 of `kMdcEdgeSetIndex` (src/util/tables.cpp:532-547). -/
def kMdcEdgeSetIndex_8 : List (List Int) := [
  [-1, -1, -1, 0, -1, -1, -1, 0, -1, -1, -1, 0], [0, -1, -1, 1, 0, -1, -1, 1, 0, -1, -1, 1],
  [-1, 0, -1, 1, -1, 0, -1, 1, 0, -1, -1, 1], [0, 0, -1, 1, 0, 0, -1, 1, -1, -1, -1, 1],
  [0, -1, -1, 1, -1, -1, 0, 1, -1, 0, -1, 1], [-1, -1, -1, 1, 0, -1, 0, 1, 0, 0, -1, 1],
  [1, 0, -1, 2, -1, 0, 1, 2, 0, 1, -1, 2], [-1, 0, -1, 1, 0, 0, 0, 1, -1, 0, -1, 1],
  [-1, 0, -1, 0, -1, -1, -1, -1, -1, 0, -1, 0], [0, 1, -1, 1, 0, -1, -1, -1, 0, 1, -1, 1],
  [-1, -1, -1, 0, -1, 0, -1, -1, 0, 0, -1, 0], [0, -1, -1, 0, 0, 0, -1, -1, -1, 0, -1, 0],
  [0, 0, -1, 0, -1, -1, 0, -1, -1, -1, -1, 0], [-1, 0, -1, 0, 0, -1, 0, -1, 0, -1, -1, 0],
  [0, -1, -1, 0, -1, 0, 0, -1, 0, -1, -1, 0], [-1, -1, -1, 0, 0, 0, 0, -1, -1, -1, -1, 0]]

/-- Rows 144..159 of `kMdcEdgeSetIndex` (src/util/tables.cpp:548-563). -/
def kMdcEdgeSetIndex_9 : List (List Int) := [
  [-1, -1, 0, 1, 0, -1, -1, 1, -1, -1, 0, 1], [0, -1, 0, 1, -1, -1, -1, 1, 0, -1, 0, 1],
  [-1, 0, 1, 2, 1, 0, -1, 2, 0, -1, 1, 2], [0, 0, 0, 1, -1, 0, -1, 1, -1, -1, 0, 1],
  [0, -1, 1, 2, 1, -1, 0, 2, -1, 0, 1, 2], [-1, -1, 0, 1, -1, -1, 0, 1, 0, 0, 0, 1],
  [1, 0, 2, 3, 2, 0, 1, 3, 0, 1, 2, 3], [-1, 0, 0, 1, -1, 0, 0, 1, -1, 0, 0, 1],
  [-1, 1, 0, 1, 0, -1, -1, -1, -1, 1, 0, 1], [0, 1, 0, 1, -1, -1, -1, -1, 0, 1, 0, 1],
  [-1, -1, 0, 1, 0, 1, -1, -1, 1, 1, 0, 1], [0, -1, 0, 0, -1, 0, -1, -1, -1, 0, 0, 0],
  [0, 0, 1, 0, 1, -1, 0, -1, -1, -1, 1, 0], [-1, 0, 0, 0, -1, -1, 0, -1, 0, -1, 0, 0],
  [0, -1, 1, 0, 1, 0, 0, -1, 0, -1, 1, 0], [-1, -1, 0, 0, -1, 0, 0, -1, -1, -1, 0, 0]]

/-- Rows 160..175 of `kMdcEdgeSetIndex` (src/util/tables.cpp:564-579). -/
def kMdcEdgeSetIndex_10 : List (List Int) := [
  [-1, -1, -1, -1, -1, 0, -1, 0, -1, -1, 0, 0], [0, -1, -1, -1, 0, 1, -1, 1, 0, -1, 1, 1],
  [-1, 0, -1, -1, -1, -1, -1, 0, 0, -1, 0, 0], [0, 0, -1, -1, 0, -1, -1, 0, -1, -1, 0, 0],
  [0, -1, -1, -1, -1, 1, 0, 1, -1, 0, 1, 1], [-1, -1, -1, -1, 0, 1, 0, 1, 0, 0, 1, 1],
  [0, 1, -1, -1, -1, -1, 0, 1, 1, 0, 1, 1], [-1, 0, -1, -1, 0, -1, 0, 0, -1, 0, 0, 0],
  [-1, 0, -1, -1, -1, 0, -1, -1, -1, 0, 0, 0], [0, 1, -1, -1, 0, 1, -1, -1, 0, 1, 1, 1],
  [-1, -1, -1, -1, -1, -1, -1, -1, 0, 0, 0, 0], [0, -1, -1, -1, 0, -1, -1, -1, -1, 0, 0, 0],
  [0, 0, -1, -1, -1, 0, 0, -1, -1, -1, 0, 0], [-1, 0, -1, -1, 0, 0, 0, -1, 0, -1, 0, 0],
  [0, -1, -1, -1, -1, -1, 0, -1, 0, -1, 0, 0], [-1, -1, -1, -1, 0, -1, 0, -1, -1, -1, 0, 0]]

/-- Rows 176..191 of `kMdcEdgeSetIndex` (src/util/tables.cpp:580-595). -/
def kMdcEdgeSetIndex_11 : List (List Int) := [
  [-1, -1, 0, -1, 0, 0, -1, 0, -1, -1, -1, 0], [0, -1, 0, -1, -1, 0, -1, 0, 0, -1, -1, 0],
  [-1, 0, 0, -1, 0, -1, -1, 0, 0, -1, -1, 0], [0, 0, 0, -1, -1, -1, -1, 0, -1, -1, -1, 0],
  [0, -1, 1, -1, 1, 1, 0, 1, -1, 0, -1, 1], [-1, -1, 0, -1, -1, 0, 0, 0, 0, 0, -1, 0],
  [0, 1, 1, -1, 1, -1, 0, 1, 1, 0, -1, 1], [-1, 0, 0, -1, -1, -1, 0, 0, -1, 0, -1, 0],
  [-1, 0, 0, -1, 0, 0, -1, -1, -1, 0, -1, 0], [0, 0, 0, -1, -1, 0, -1, -1, 0, 0, -1, 0],
  [-1, -1, 0, -1, 0, -1, -1, -1, 0, 0, -1, 0], [0, -1, 0, -1, -1, -1, -1, -1, -1, 0, -1, 0],
  [0, 0, 0, -1, 0, 0, 0, -1, -1, -1, -1, 0], [-1, 0, 0, -1, -1, 0, 0, -1, 0, -1, -1, 0],
  [0, -1, 0, -1, 0, -1, 0, -1, 0, -1, -1, 0], [-1, -1, 0, -1, -1, -1, 0, -1, -1, -1, -1, 0]]

/-- Rows 192..207 of `kMdcEdgeSetIndex` (src/util/tables.cpp:596-611). -/
def kMdcEdgeSetIndex_12 : List (List Int) := [
  [-1, -1, 0, 0, -1, -1, 0, 0, -1, -1, -1, -1], [0, -1, 1, 1, 0, -1, 1, 1, 0, -1, -1, -1],
  [-1, 0, 1, 1, -1, 0, 1, 1, 0, -1, -1, -1], [0, 0, 1, 1, 0, 0, 1, 1, -1, -1, -1, -1],
  [0, -1, 0, 0, -1, -1, -1, 0, -1, 0, -1, -1], [-1, -1, 0, 0, 0, -1, -1, 0, 0, 0, -1, -1],
  [1, 0, 1, 1, -1, 0, -1, 1, 0, 1, -1, -1], [-1, 0, 0, 0, 0, 0, -1, 0, -1, 0, -1, -1],
  [-1, 0, 0, 0, -1, -1, 0, -1, -1, 0, -1, -1], [0, 1, 1, 1, 0, -1, 1, -1, 0, 1, -1, -1],
  [-1, -1, 0, 0, -1, 0, 0, -1, 0, 0, -1, -1], [0, -1, 0, 0, 0, 0, 0, -1, -1, 0, -1, -1],
  [0, 0, 0, 0, -1, -1, -1, -1, -1, -1, -1, -1], [-1, 0, 0, 0, 0, -1, -1, -1, 0, -1, -1, -1],
  [0, -1, 0, 0, -1, 0, -1, -1, 0, -1, -1, -1], [-1, -1, 0, 0, 0, 0, -1, -1, -1, -1, -1, -1]]

/-- Rows 208..223 of `kMdcEdgeSetIndex` (src/util/tables.cpp:612-627). -/
def kMdcEdgeSetIndex_13 : List (List Int) := [
  [-1, -1, -1, 0, 0, -1, 0, 0, -1, -1, 0, -1], [0, -1, -1, 0, -1, -1, 0, 0, 0, -1, 0, -1],
  [-1, 0, -1, 1, 1, 0, 1, 1, 0, -1, 1, -1], [0, 0, -1, 0, -1, 0, 0, 0, -1, -1, 0, -1],
  [0, -1, -1, 0, 0, -1, -1, 0, -1, 0, 0, -1], [-1, -1, -1, 0, -1, -1, -1, 0, 0, 0, 0, -1],
  [1, 0, -1, 1, 1, 0, -1, 1, 0, 1, 1, -1], [-1, 0, -1, 0, -1, 0, -1, 0, -1, 0, 0, -1],
  [-1, 0, -1, 0, 0, -1, 0, -1, -1, 0, 0, -1], [0, 0, -1, 0, -1, -1, 0, -1, 0, 0, 0, -1],
  [-1, -1, -1, 0, 0, 0, 0, -1, 0, 0, 0, -1], [0, -1, -1, 0, -1, 0, 0, -1, -1, 0, 0, -1],
  [0, 0, -1, 0, 0, -1, -1, -1, -1, -1, 0, -1], [-1, 0, -1, 0, -1, -1, -1, -1, 0, -1, 0, -1],
  [0, -1, -1, 0, 0, 0, -1, -1, 0, -1, 0, -1], [-1, -1, -1, 0, -1, 0, -1, -1, -1, -1, 0, -1]]

/-- Rows 224..239 of `kMdcEdgeSetIndex` (src/util/tables.cpp:628-643). -/
def kMdcEdgeSetIndex_14 : List (List Int) := [
  [-1, -1, 0, -1, -1, 0, 0, 0, -1, -1, 0, -1], [0, -1, 1, -1, 0, 1, 1, 1, 0, -1, 1, -1],
  [-1, 0, 0, -1, -1, -1, 0, 0, 0, -1, 0, -1], [0, 0, 0, -1, 0, -1, 0, 0, -1, -1, 0, -1],
  [0, -1, 0, -1, -1, 0, -1, 0, -1, 0, 0, -1], [-1, -1, 0, -1, 0, 0, -1, 0, 0, 0, 0, -1],
  [0, 0, 0, -1, -1, -1, -1, 0, 0, 0, 0, -1], [-1, 0, 0, -1, 0, -1, -1, 0, -1, 0, 0, -1],
  [-1, 0, 0, -1, -1, 0, 0, -1, -1, 0, 0, -1], [0, 1, 1, -1, 0, 1, 1, -1, 0, 1, 1, -1],
  [-1, -1, 0, -1, -1, -1, 0, -1, 0, 0, 0, -1], [0, -1, 0, -1, 0, -1, 0, -1, -1, 0, 0, -1],
  [0, 0, 0, -1, -1, 0, -1, -1, -1, -1, 0, -1], [-1, 0, 0, -1, 0, 0, -1, -1, 0, -1, 0, -1],
  [0, -1, 0, -1, -1, -1, -1, -1, 0, -1, 0, -1], [-1, -1, 0, -1, 0, -1, -1, -1, -1, -1, 0, -1]]

/-- Rows 240..255 of `kMdcEdgeSetIndex` (src/util/tables.cpp:644-659). -/
def kMdcEdgeSetIndex_15 : List (List Int) := [
  [-1, -1, -1, -1, 0, 0, 0, 0, -1, -1, -1, -1], [0, -1, -1, -1, -1, 0, 0, 0, 0, -1, -1, -1],
  [-1, 0, -1, -1, 0, -1, 0, 0, 0, -1, -1, -1], [0, 0, -1, -1, -1, -1, 0, 0, -1, -1, -1, -1],
  [0, -1, -1, -1, 0, 0, -1, 0, -1, 0, -1, -1], [-1, -1, -1, -1, -1, 0, -1, 0, 0, 0, -1, -1],
  [0, 0, -1, -1, 0, -1, -1, 0, 0, 0, -1, -1], [-1, 0, -1, -1, -1, -1, -1, 0, -1, 0, -1, -1],
  [-1, 0, -1, -1, 0, 0, 0, -1, -1, 0, -1, -1], [0, 0, -1, -1, -1, 0, 0, -1, 0, 0, -1, -1],
  [-1, -1, -1, -1, 0, -1, 0, -1, 0, 0, -1, -1], [0, -1, -1, -1, -1, -1, 0, -1, -1, 0, -1, -1],
  [0, 0, -1, -1, 0, 0, -1, -1, -1, -1, -1, -1], [-1, 0, -1, -1, -1, 0, -1, -1, 0, -1, -1, -1],
  [0, -1, -1, -1, 0, -1, -1, -1, 0, -1, -1, -1], [-1, -1, -1, -1, -1, -1, -1, -1, -1, -1, -1, -1]]

/-- `kMdcEdgeSetIndex` (src/util/tables.cpp:403-660), all 256 rows. -/
def kMdcEdgeSetIndex : List (List Int) :=
  kMdcEdgeSetIndex_0 ++ kMdcEdgeSetIndex_1 ++ kMdcEdgeSetIndex_2 ++ kMdcEdgeSetIndex_3 ++
  kMdcEdgeSetIndex_4 ++ kMdcEdgeSetIndex_5 ++ kMdcEdgeSetIndex_6 ++ kMdcEdgeSetIndex_7 ++
  kMdcEdgeSetIndex_8 ++ kMdcEdgeSetIndex_9 ++ kMdcEdgeSetIndex_10 ++ kMdcEdgeSetIndex_11 ++
  kMdcEdgeSetIndex_12 ++ kMdcEdgeSetIndex_13 ++ kMdcEdgeSetIndex_14 ++ kMdcEdgeSetIndex_15

/-- `isManifold` in `DC_Octree::checkTopoSafety` (src/data/dc_octree.cpp:420-437). -/
def kIsManifold : List Bool := [
  true, true, true, true, true, false, true, true, true, true, false, true, true, true, true, true, true,
  true, false, true, false, false, false, true, false, true, false, true, false, true, false, true, true,
  false, true, true, false, false, true, true, false, false, false, true, false, false, true, true, true,
  true, true, true, false, false, true, true, false, true, false, true, false, false, false, true, true,
  false, false, false, true, false, true, true, false, false, false, false, true, true, true, true, false,
  false, false, false, false, false, false, false, false, false, false, false, false, false, false, false,
  true, false, true, true, true, false, true, true, false, false, false, false, true, false, true, true,
  true, true, true, true, true, false, true, true, false, false, false, false, false, false, false, true,
  true, false, false, false, false, false, false, false, true, true, false, true, true, true, true, true,
  true, true, false, true, false, false, false, false, true, true, false, true, true, true, false, true,
  false, false, false, false, false, false, false, false, false, false, false, false, false, false, false,
  false, true, true, true, true, false, false, false, false, true, true, false, true, false, false, false,
  true, true, false, false, false, true, false, true, false, true, true, false, false, true, true, true,
  true, true, true, false, false, true, false, false, false, true, true, false, false, true, true, false,
  true, true, false, true, false, true, false, true, false, true, false, false, false, true, false, true,
  true, true, true, true, true, true, false, true, true, true, true, false, true, true, true, true, true]

/-- `dcToMc` in `DC_Octree::checkTopoSafety` (src/data/dc_octree.cpp:419). -/
def kDcToMc : List Nat := [0, 3, 1, 2, 4, 7, 5, 6]

end Isomesh
