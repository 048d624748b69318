import Verif.Model.Additional
import Verif.Props.GrdeclIncludes
import Verif.Props.Voxet

/-!
# What is loaded depends on the listed files only
-/

namespace Verif.Props.Additional

open Verif Verif.Res Verif.Additional
open Verif.Props.GrdeclIncludes (NamedFor Includes source main1 fs1)
open Verif.Props.Voxet (Announced announced_partial voFile voData geoZ)

variable {D : Type} [Num D]

/-- Two disks have the same contents at some paths. -/
def Agree (paths : List Str) (a b : Disk) : Prop := ∀ p ∈ paths, a p = b p

/-! ## Corner point grids -/

section Grdecl

variable [Add D] [Sub D] [Mul D] [Div D] [One D]

/-- What is loaded depends on the two files that the last inclusions name, at most, in the folder of the file. -/
theorem grdecl_depends {merge : List (Pt D) → List (Pt D) × List Nat} {folder : Str} {f after : File} {n : Nat × Nat × Nat}
    (hd : Grdecl.readDims f = .ok (n, after)) {ls : List Str} (hi : Includes after ls) {o1 o2 : Option Str}
    (h1 : NamedFor ls cs!"COORD" o1) (h2 : NamedFor ls cs!"ZCORN" o2) {a b : Disk}
    (h : Agree ((o1.toList ++ o2.toList).map (folder ++ ·)) a b) : loadGrdecl merge a folder f = loadGrdecl merge b folder f := by
  obtain ⟨nx, ny, nz⟩ := n
  have hs : ∀ (o : Option Str) (other : File), (∀ m ∈ o, m ∈ o1.toList ++ o2.toList) →
      source (fun m => a (folder ++ m)) other o = source (fun m => b (folder ++ m)) other o := by
    intro o other ho
    cases o with
    | none => rfl
    | some m => simp only [source, h (folder ++ m) (List.mem_map.2 ⟨m, ho m rfl, rfl⟩)]
  unfold loadGrdecl
  rw [GrdeclIncludes.included hd hi h1 h2, GrdeclIncludes.included hd hi h1 h2, hs o1 f (by intro m hm; simp [Option.mem_def.1 hm])]
  congr 1
  funext r
  rw [hs o2 _ (by intro m hm; simp [Option.mem_def.1 hm])]

/-- Files without inclusion of pillars or depths depend on nothing else, as is listed. -/
theorem grdecl_listed_partial {merge : List (Pt D) → List (Pt D) × List Nat} {folder : Str} {f after : File} {n : Nat × Nat × Nat}
    (hd : Grdecl.readDims f = .ok (n, after)) {ls : List Str} (hi : Includes after ls)
    (h1 : NamedFor ls cs!"COORD" none) (h2 : NamedFor ls cs!"ZCORN" none) (a b : Disk) :
    loadGrdecl merge a folder f = loadGrdecl merge b folder f :=
  grdecl_depends hd hi h1 h2 (by intro p hp; simp at hp)

end Grdecl

/-- **C141 is false** of corner point grids with included files: they are not listed. -/
theorem grdecl_unlisted : ¬∀ (a b : Disk), Agree (grdeclListed main1) a b →
    (loadGrdecl (fun pts => (pts, List.range pts.length)) a [] main1 : Res (Grdecl.Solid Int)) = loadGrdecl (fun pts => (pts, List.range pts.length)) b [] main1 := by
  intro h
  have := congrArg (fun r : Res (Grdecl.Solid Int) => match r with | .ok s => s.hexas | _ => []) (h fs1 (fun _ => none) (by intro p hp; simp [grdeclListed] at hp))
  revert this
  decide +kernel

/-! ## Voxets -/

/-- What is loaded depends on one file. -/
theorem vo_depends {g : Voxet.Geo D} {folder : Str} {f : File} {a b : Disk}
    (h : ∀ grid path, Voxet.loadHead g folder f = .ok (grid, path) → a path = b path) : Voxet.load g a folder f = Voxet.load g b folder f := by
  unfold Voxet.load
  cases hh : Voxet.loadHead g folder f with
  | ok r =>
    obtain ⟨grid, path⟩ := r
    rw [ok_bind, ok_bind]
    dsimp only
    rw [h grid path hh]
  | throw => rfl
  | ub => rfl
  | diverge => rfl

/-- This file is the listed one for a `.vo` file of the current folder with one record and no carriage return. -/
theorem vo_listed_partial {g : Voxet.Geo D} {f : File} (hone : (f.filter fun l => startsWith l cs!"ASCII_DATA_FILE").length ≤ 1)
    (hcr : ∀ l ∈ f, '\r' ∉ l) {a b : Disk} (h : Agree (voListed f) a b) : Voxet.load g a [] f = Voxet.load g b [] f := by
  refine vo_depends fun grid path hh => h path ?_
  have key := announced_partial (g := g) (fs := a) hone hcr grid path hh
  unfold Voxet.additionalFiles at key
  unfold voListed
  cases hd : Voxet.dataFile f with
  | none => rw [hd] at key; simp at key
  | some n =>
    rw [hd] at key
    simp only [Option.map_some, Option.some.injEq, Prod.mk.injEq] at key
    simp [key.1]

/-- **C141 is false** of voxets of another folder: the data file beside the `.vo` file is not the listed one. -/
theorem vo_unlisted : ¬∀ (a b : Disk), Agree (voListed voFile) a b →
    (Voxet.load geoZ a cs!"d/" voFile : Res (Voxet.Grid Int)) = Voxet.load geoZ b cs!"d/" voFile := by
  intro h
  have := congrArg (fun r : Res (Voxet.Grid Int) => match r with | .ok s => s.cols.length | _ => 0)
    (h (fun p => if p = cs!"d/v@@" then some voData else none) (fun _ => none) (by
      intro p hp
      have e : voListed voFile = [cs!"v@@"] := by decide +kernel
      rw [e, List.mem_singleton] at hp
      subst hp
      decide))
  revert this
  decide +kernel

end Verif.Props.Additional
