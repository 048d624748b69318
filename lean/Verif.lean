import Verif.Base.NumIO
import Verif.Base.Outcome
import Verif.Base.Text
import Verif.Model.Additional
import Verif.Model.BrepFem
import Verif.Model.BrepFemFile
import Verif.Model.Decimal
import Verif.Model.Dem
import Verif.Model.Fem
import Verif.Model.FemFile
import Verif.Model.FemNan
import Verif.Model.Geos
import Verif.Model.GeosFiles
import Verif.Model.Gocad
import Verif.Model.GocadMesh
import Verif.Model.Grdecl
import Verif.Model.Images
import Verif.Model.Lso
import Verif.Model.LsoLines
import Verif.Model.LsoWhole
import Verif.Model.Ml
import Verif.Model.MlCorners
import Verif.Model.MlLines
import Verif.Model.MlTolerance
import Verif.Model.MlUniques
import Verif.Model.MlWhole
import Verif.Model.Paths
import Verif.Model.Recognise
import Verif.Model.Registry
import Verif.Model.Saveable
import Verif.Model.Shp
import Verif.Model.Sides
import Verif.Model.Skua
import Verif.Model.StratiLso
import Verif.Model.Unfinished
import Verif.Model.Voxet
import Verif.Model.Wells
import Verif.Lemmas.Comments
import Verif.Lemmas.Decimal
import Verif.Lemmas.FirstBad
import Verif.Lemmas.GocadAttrs
import Verif.Lemmas.GocadBody
import Verif.Lemmas.GocadBuild
import Verif.Lemmas.GocadCut
import Verif.Lemmas.GocadIlines
import Verif.Lemmas.GocadLoad
import Verif.Lemmas.GocadMesh
import Verif.Lemmas.GocadPLine
import Verif.Lemmas.GocadProps
import Verif.Lemmas.GocadText
import Verif.Lemmas.GocadVSet
import Verif.Lemmas.GocadWalk
import Verif.Lemmas.LineEnds
import Verif.Lemmas.LsoAttrs
import Verif.Lemmas.LsoEnds
import Verif.Lemmas.LsoFacets
import Verif.Lemmas.LsoLines
import Verif.Lemmas.LsoModel
import Verif.Lemmas.LsoPoints
import Verif.Lemmas.LsoSolid
import Verif.Lemmas.LsoSurfaces
import Verif.Lemmas.LsoVertices
import Verif.Lemmas.MlComponents
import Verif.Lemmas.MlLines
import Verif.Lemmas.MlLists
import Verif.Lemmas.MlModel
import Verif.Lemmas.MlPairs
import Verif.Lemmas.MlRecords
import Verif.Lemmas.MlRegion
import Verif.Lemmas.MlSurfaces
import Verif.Lemmas.Radix
import Verif.Lemmas.Shp
import Verif.Lemmas.Sides
import Verif.Lemmas.Spacing
import Verif.Lemmas.SpacingReaders
import Verif.Lemmas.Text
import Verif.Lemmas.Unfinished
import Verif.Props.Additional
import Verif.Props.BrepFem
import Verif.Props.BrepFemFile
import Verif.Props.ClassesExact
import Verif.Props.ColumnsSorted
import Verif.Props.Comments
import Verif.Props.CurveOutcomes
import Verif.Props.DataFeed
import Verif.Props.Dem
import Verif.Props.DevRefused
import Verif.Props.DevTitle
import Verif.Props.Digits
import Verif.Props.ExactExports
import Verif.Props.ExactFiles
import Verif.Props.ExactLast
import Verif.Props.ExactMore
import Verif.Props.ExactOrigins
import Verif.Props.ExactRest
import Verif.Props.ExactSmall
import Verif.Props.FemFeatures
import Verif.Props.FemFile
import Verif.Props.FemMaterial
import Verif.Props.FemNan
import Verif.Props.FemRanges
import Verif.Props.FemSections
import Verif.Props.FemValues
import Verif.Props.Geos
import Verif.Props.GeosExact
import Verif.Props.GeosFiles
import Verif.Props.GeosRefused
import Verif.Props.GocadBody
import Verif.Props.GocadClasses
import Verif.Props.GocadEnds
import Verif.Props.GocadFiles
import Verif.Props.GocadHeaders
import Verif.Props.GocadNumbers
import Verif.Props.GocadRefused
import Verif.Props.GocadStable
import Verif.Props.GocadText
import Verif.Props.GocadTruncated
import Verif.Props.GocadUb
import Verif.Props.GocadVectors
import Verif.Props.GrdeclCells
import Verif.Props.GrdeclDims
import Verif.Props.GrdeclGrid
import Verif.Props.GrdeclIncludes
import Verif.Props.GrdeclOrder
import Verif.Props.GrdeclPinch
import Verif.Props.GrdeclRefused
import Verif.Props.GrdeclText
import Verif.Props.GrdeclUnfinished
import Verif.Props.HeadersRefused
import Verif.Props.Images
import Verif.Props.LineEnds
import Verif.Props.LsoCases
import Verif.Props.LsoCovered
import Verif.Props.LsoCut
import Verif.Props.LsoFile
import Verif.Props.LsoIndicators
import Verif.Props.LsoInspect
import Verif.Props.LsoLines
import Verif.Props.LsoLoads
import Verif.Props.LsoNumbers
import Verif.Props.LsoOutcomes
import Verif.Props.LsoRefused
import Verif.Props.LsoRelations
import Verif.Props.LsoResaved
import Verif.Props.LsoRoundTrip
import Verif.Props.LsoSaving
import Verif.Props.LsoShared
import Verif.Props.LsoStable
import Verif.Props.LsoToMl
import Verif.Props.LsoWhole
import Verif.Props.LsoWords
import Verif.Props.ManyProps
import Verif.Props.ManySets
import Verif.Props.MeshResaved
import Verif.Props.MlAnyNumbers
import Verif.Props.MlAtoms
import Verif.Props.MlBlocks
import Verif.Props.MlBorders
import Verif.Props.MlCases
import Verif.Props.MlCollections
import Verif.Props.MlCorners
import Verif.Props.MlCut
import Verif.Props.MlExactLines
import Verif.Props.MlFile
import Verif.Props.MlGroups
import Verif.Props.MlLines
import Verif.Props.MlLoads
import Verif.Props.MlMeshes
import Verif.Props.MlNames
import Verif.Props.MlNumbers
import Verif.Props.MlOrder
import Verif.Props.MlOrderExact
import Verif.Props.MlOthers
import Verif.Props.MlOutcomes
import Verif.Props.MlRefused
import Verif.Props.MlRelations
import Verif.Props.MlResaved
import Verif.Props.MlRoundTrip
import Verif.Props.MlSaving
import Verif.Props.MlStable
import Verif.Props.MlTolerance
import Verif.Props.MlUniques
import Verif.Props.MlWhole
import Verif.Props.PLine
import Verif.Props.PLineLoops
import Verif.Props.PLineStable
import Verif.Props.Paths
import Verif.Props.PointSetOutcomes
import Verif.Props.Priorities
import Verif.Props.PrioritiesExact
import Verif.Props.PropHeaders
import Verif.Props.QuotesExact
import Verif.Props.Recognise
import Verif.Props.Registry
import Verif.Props.Saveable
import Verif.Props.Shp
import Verif.Props.ShpRecognise
import Verif.Props.ShpRefused
import Verif.Props.Sides
import Verif.Props.Skua
import Verif.Props.SkuaColumns
import Verif.Props.Spacing
import Verif.Props.StratiExact
import Verif.Props.StratiLso
import Verif.Props.SurfaceOutcomes
import Verif.Props.TSurf
import Verif.Props.VSet
import Verif.Props.Voxet
import Verif.Props.VoxetData
import Verif.Props.VoxetGrid
import Verif.Props.VoxetRefused
import Verif.Props.WellOutcomes
import Verif.Props.Wells
import Verif.Props.WellsSaved
import Verif.Props.WlOutcomes
import Verif.Tests.RepoData
