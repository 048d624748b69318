import Verif.Model.Dem

/-!
# Images: recognition, and the level of the log

Models of `/repo/src/geode/geosciences_io/mesh/geotiff_input.cpp` (called `geo` below), `polytiff_input.cpp` (called `poly`) and `dem_input.cpp`
(called `dem`): which files are recognised, when reading throws, and what becomes of the level of the log, which is global.  GDAL and the readers of
raster images of OpenGeode-IO are external: their answers are the fields of `Image`.  Percentages are numbers of hundredths.
-/

namespace Verif.Images

open Verif

/-- `Logger::LEVEL`. -/
inductive Level
  | trace | debug | info | warn | err | critical | off
  deriving DecidableEq, Repr

/-- What the external libraries say of a file. -/
structure Image (D : Type) where
  /-- GDAL opens the file: the constructor of `GDALFile` throws otherwise. -/
  opened : Bool
  /-- `is_raster_image_loadable`, in hundredths. -/
  rasterPercent : Nat
  /-- `load_raster_image` succeeds. -/
  rasterLoads : Bool
  /-- `is_coordinate_system_loadable`: `read_coordinate_system` throws otherwise. -/
  crs : Bool
  /-- `GetRasterCount`. -/
  bands : Nat
  /-- `RasterIO` succeeds. -/
  io : Bool
  raster : Dem.Raster D

variable {D : Type}

/-- The level of the log after an operation, and its result. -/
abbrev Logged (α : Type) := Level × Res α

/-- The body of lines 56-62 of `geo` and 51-55 of `poly`: the level is changed for the time of `load`, and put back if it returns. -/
def quiet {α : Type} (level : Level) (load : Level → Logged α) : Logged α :=
  match load .critical with
  | (_, .ok a) => (level, .ok a)
  | (l, r) => (l, r)

/-- `load_raster_image`, which does not change the level. -/
def loadRaster (i : Image D) (level : Level) : Logged Unit := (level, Res.check i.rasterLoads)

/-- `GEOTIFFInput::read`, `geo` lines 48-64 and 76-80, up to the conversion of the image into a grid. -/
def readGeoTiff (i : Image D) (level : Level) : Logged Unit :=
  if i.opened then
    match quiet level (loadRaster i) with
    | (l, .ok _) => (l, Res.check i.crs)
    | r => r
  else (level, .throw)

/-- `PolyTIFFInput::read`, `poly` lines 45-85 and 97-102: `load_light_regular_grid` is `readGeoTiff`, found by the factory of readers. -/
def readPolyTiff (i : Image D) (level : Level) : Logged (List (Option D)) :=
  if i.opened then
    match quiet level (readGeoTiff i) with
    | (l, .ok _) => (l, do
        Res.check (decide (0 < i.bands))
        Res.check i.io
        Dem.polyElevations i.raster)
    | (l, .throw) => (l, .throw)
    | (l, .ub) => (l, .ub)
    | (l, .diverge) => (l, .diverge)
  else (level, .throw)

/-- `DEMInput::read`, `dem` lines 45-56, 89-105, 131-136 and 150-156. -/
def readDem (i : Image D) : Res (Dem.Surface D) := do
  Res.check i.opened
  Res.check i.crs
  Res.check (decide (0 < i.bands))
  Res.check i.io
  Dem.load i.raster

/-! ## Recognition -/

/-- `GEOTIFFInput::is_loadable`, `geo` lines 82-96. -/
def loadableGeoTiff (i : Image D) : Res Nat :=
  if i.rasterPercent ≠ 100 then .ok i.rasterPercent
  else do
    Res.check i.opened
    pure (if i.crs then 100 else 0)

/-- `PolyTIFFInput::is_loadable`, `poly` lines 110-124: `is_light_regular_grid_loadable` is `loadableGeoTiff`. -/
def loadablePolyTiff (i : Image D) : Res Nat := do
  let percent ← loadableGeoTiff i
  if percent ≠ 100 then pure percent
  else do
    Res.check i.opened
    pure (if i.bands = 0 then 0 else 100)

/-- `DEMInput::is_loadable`, `dem` lines 164-175. -/
def loadableDem (i : Image D) : Res Nat := do
  Res.check i.opened
  pure (if !i.crs then 0 else if i.bands = 0 then 0 else 100)

end Verif.Images
