import Verif.Model.Images
import Verif.Props.Dem

/-!
# Images: recognition, and the level of the log

`Trusted` relates the answers of the external libraries: a raster image recognised at 100 % is loaded, and GDAL delivers all the values of a band it reads.
-/

namespace Verif.Props.Images

open Verif Verif.Res Verif.Images

variable {D : Type}

/-! ## The level of the log -/

/-- Level after reading a grid: lost exactly when the image cannot be loaded. -/
theorem geo_level (i : Image D) (level : Level) : (readGeoTiff i level).1 = if i.opened = true ∧ i.rasterLoads = false then .critical else level := by
  unfold readGeoTiff quiet loadRaster
  cases i.opened <;> cases i.rasterLoads <;> simp [Res.check]

/-- Reading a grid: it is read or refused. -/
theorem geo_outcomes (i : Image D) (level : Level) :
    (readGeoTiff i level).2 = if i.opened = true ∧ i.rasterLoads = true ∧ i.crs = true then .ok () else .throw := by
  unfold readGeoTiff quiet loadRaster
  cases i.opened <;> cases i.rasterLoads <;> cases i.crs <;> simp [Res.check]

/-- The readers of surfaces are sure of their answers: a file is recognised fully or not at all, unless the image itself is in doubt. -/
theorem percents (i : Image D) : (∀ n, loadableDem i = .ok n → n = 0 ∨ n = 100) ∧ (∀ n, loadableGeoTiff i = .ok n → n = 0 ∨ n = 100 ∨ n = i.rasterPercent) ∧
    ∀ n, loadablePolyTiff i = .ok n → n = 0 ∨ n = 100 ∨ n = i.rasterPercent := by
  unfold loadablePolyTiff loadableDem loadableGeoTiff
  refine ⟨?_, ?_, ?_⟩
  · intro n
    cases i.opened <;> cases i.crs <;> by_cases hb : i.bands = 0 <;> simp [Res.check, hb] <;> omega
  · intro n
    by_cases hp : i.rasterPercent = 100 <;> cases i.opened <;> cases i.crs <;> simp [Res.check, hp] <;> omega
  · intro n
    by_cases hp : i.rasterPercent = 100 <;> cases i.opened <;> cases i.crs <;> by_cases hb : i.bands = 0 <;> simp [Res.check, hp, hb] <;> omega

/-- Level after reading a surface: lost exactly when the grid cannot be loaded, whatever the reason. -/
theorem poly_level (i : Image D) (level : Level) :
    (readPolyTiff i level).1 = if i.opened = true ∧ (i.rasterLoads = false ∨ i.crs = false) then .critical else level := by
  unfold readPolyTiff readGeoTiff quiet loadRaster
  cases i.opened <;> cases i.rasterLoads <;> cases i.crs <;> simp [Res.check]

/-- An image whose raster cannot be loaded. -/
def broken : Image Int := ⟨true, 100, false, true, 1, true, ⟨1, 1, [0], fun _ => false, fun _ _ => (0, 0)⟩⟩

/-- "Reading an image does not change the level of the log" is false for grids. -/
theorem geo_level_lost : ¬∀ (i : Image Int) (level : Level), (readGeoTiff i level).1 = level := by
  intro h
  exact absurd (h broken .info) (by decide)

/-- It is false for surfaces, also when the image itself is loaded. -/
theorem poly_level_lost : ¬∀ (i : Image Int) (level : Level), i.rasterLoads = true → (readPolyTiff i level).1 = level := by
  intro h
  exact absurd (h { broken with rasterLoads := true, crs := false } .info rfl) (by decide)

/-- It holds when the reader returns.  (Full statement: for all files.) -/
theorem geo_level_partial (i : Image D) (level : Level) (h : (readGeoTiff i level).2 = .ok ()) : (readGeoTiff i level).1 = level := by
  rw [geo_level]
  unfold readGeoTiff quiet loadRaster at h
  revert h
  cases i.opened <;> cases i.rasterLoads <;> simp [Res.check]

/-- Once lost the level is critical for good: no later image gives it back. -/
theorem level_stays_lost (i : Image D) : (readGeoTiff i .critical).1 = .critical ∧ (readPolyTiff i .critical).1 = .critical := by
  rw [geo_level, poly_level]
  constructor <;> split <;> rfl

example : (readGeoTiff { broken with rasterLoads := true } .info) = (.info, .ok ()) := by decide

/-! ## Recognition -/

/-- What the external libraries promise. -/
structure Trusted (i : Image D) : Prop where
  opens : i.rasterPercent = 100 → i.opened = true ∧ i.rasterLoads = true
  width : 0 < i.raster.width
  height : 0 < i.raster.height
  size : i.raster.width * i.raster.height < W
  values : i.raster.elevation.length = i.raster.width * i.raster.height

/-- Elevation files recognised are loaded, as soon as GDAL reads the band. -/
theorem dem_recognised {i : Image D} (t : Trusted i) (hio : i.io = true) (h : loadableDem i = .ok 100) : ∃ s, readDem i = .ok s ∧ Dem.load i.raster = .ok s := by
  obtain ⟨s, hs⟩ : ∃ s, Dem.load i.raster = .ok s := ⟨_, Props.Dem.dem_loaded t.width t.height t.size t.values⟩
  refine ⟨s, ?_, hs⟩
  unfold loadableDem at h
  unfold readDem
  revert h
  cases ho : i.opened <;> cases hc : i.crs <;> simp [Res.check, hio]
  intro hb
  rw [if_pos (by omega)]
  simpa using hs

/-- Elevation files that are not recognised are refused with an exception. -/
theorem dem_refused {i : Image D} (h : loadableDem i ≠ .ok 100) : readDem i = .throw := by
  unfold loadableDem at h
  unfold readDem
  revert h
  cases ho : i.opened <;> cases hc : i.crs <;> simp [Res.check]
  intro hb
  rw [if_neg (by omega)]
  rfl

/-- Grids: an image is read if and only if it is recognised, when all images loaded are recognised at 100 %. -/
theorem geo_recognised {i : Image D} (t : Trusted i) (ht : i.rasterLoads = true → i.rasterPercent = 100) (level : Level) :
    loadableGeoTiff i = .ok 100 ↔ (readGeoTiff i level).2 = .ok () := by
  have t1 := t.opens
  unfold loadableGeoTiff readGeoTiff quiet loadRaster
  by_cases hp : i.rasterPercent = 100
  · obtain ⟨h1, h2⟩ := t1 hp
    cases hc : i.crs <;> simp [hp, h1, h2, Res.check]
  · have hr : i.rasterLoads = false := by
      cases hr : i.rasterLoads
      · rfl
      · exact absurd (ht hr) hp
    cases ho : i.opened <;> simp [hp, hr, Res.check]

/-- Surfaces: "an image recognised is loaded" is false for every image; undefined behaviour, if GDAL reads the band. -/
theorem poly_recognised_ub {i : Image D} (t : Trusted i) (hio : i.io = true) (h : loadablePolyTiff i = .ok 100) (level : Level) :
    (readPolyTiff i level).2 = .ub := by
  have hu := Props.Dem.poly_uninitialised t.values
  have t1 := t.opens
  unfold loadablePolyTiff loadableGeoTiff at h
  unfold readPolyTiff readGeoTiff quiet loadRaster
  by_cases hp : i.rasterPercent = 100
  · obtain ⟨h1, h2⟩ := t1 hp
    revert h
    cases hc : i.crs <;> simp [hp, h1, h2, Res.check, hio]
    intro hb
    rw [if_pos (by omega)]
    exact hu
  · simp [hp] at h

/-- Surfaces: images that are not recognised are never loaded, whatever the reason. -/
theorem poly_refused {i : Image D} (t : Trusted i) (level : Level) (es : List (Option D)) : (readPolyTiff i level).2 ≠ .ok es := by
  have hu := Props.Dem.poly_uninitialised t.values
  unfold readPolyTiff readGeoTiff quiet loadRaster
  cases i.opened <;> cases i.rasterLoads <;> cases i.crs <;> simp [Res.check]
  by_cases hb : 0 < i.bands
  · rw [if_pos hb]
    cases i.io
    · show ¬ ((Res.throw : Res (List (Option D))) = .ok es)
      nofun
    · show ¬ (Dem.polyElevations i.raster = .ok es)
      rw [hu]
      nofun
  · rw [if_neg hb]
    show ¬ ((Res.throw : Res (List (Option D))) = .ok es)
    nofun

/-- Surfaces: every image is refused with an exception, but those that open, have a coordinate system and a band that is read: undefined behaviour. -/
theorem poly_outcomes {i : Image D} (t : Trusted i) (level : Level) :
    (readPolyTiff i level).2 = if i.opened = true ∧ i.rasterLoads = true ∧ i.crs = true ∧ 0 < i.bands ∧ i.io = true then .ub else .throw := by
  have hu := Props.Dem.poly_uninitialised t.values
  unfold readPolyTiff readGeoTiff quiet loadRaster
  cases i.opened <;> cases i.rasterLoads <;> cases i.crs <;> simp [Res.check]
  by_cases hb : 0 < i.bands
  · rw [if_pos hb]
    cases i.io
    · simp
    · simp [hb, hu]
  · rw [if_neg hb]
    simp [hb]

example : Trusted { broken with rasterLoads := true } := ⟨fun _ => ⟨rfl, rfl⟩, by decide, by decide, by decide, rfl⟩
example : loadableDem broken = .ok 100 ∧ loadablePolyTiff broken = .ok 100 ∧ loadableDem { broken with crs := false } = .ok 0 := by decide

end Verif.Props.Images
