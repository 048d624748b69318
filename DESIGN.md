# Formal model of OpenGeode-GeosciencesIO

The model is a set of Lean 4 modules under `lean/Verif/`.  It follows the C++ source in `/repo` function by
function; every definition cites the file and the lines it models.  The properties are in `properties.jsonl`; the
theorem(s) that settle each of them are in `MANIFEST.json`.

## 1. Shape of the model

* **Outcomes** (`Base/Outcome.lean`).  A modelled function returns `Res α`: `ok a`, `throw` (a C++ exception), `ub`
  (undefined behaviour: out-of-bounds `operator[]`, `front()` of an empty container, dereferencing `end()`, a violated
  builder precondition such as a vertex index out of range) or `diverge` (endless loop).  The four are never confused:
  a theorem that says "raises an exception" says `= throw`.
* **Text** (`Base/Text.lean`).  A file is the list of lines `std::getline` delivers; a line is a `List Char`.
  Splitting, quoting, joining, prefix tests and decimal numbers are modelled at character level and proved to round
  trip.
* **Numbers** (`Base/NumIO.lean`).  `double` is an abstract type with an abstract `parse`, `fmt` (stream formatting,
  which keeps 6 digits), `neg`, ... and the law `parse (fmt d) = some (round d)`.  Nothing about IEEE arithmetic is
  assumed; round trips are stated "up to `round`".  C180-C182 are about the numbers themselves: `Model/Decimal.lean` defines
  `%g`, `%f`, `string_to_double` and rounding to doubles and floats over the rationals, without bound on the exponent, and
  `Props/Digits.lean` proves that doubles have the laws assumed elsewhere.  `index_t` is `Nat` reduced modulo 2^32 exactly where the code can
  wrap (`a - b`, `n - 1`).
* **Readers** are explicit functions `List Line → Res (α × List Line)`; a `while( getline )` loop is a structural
  recursion over the remaining lines; a loop that never tests for end of file becomes `diverge` at the end of the list.
* **Writers** produce the list of lines.
* **Meshes and models** are plain lists of points, index tuples, attribute columns and relations: what the public API of
  the OpenGeode mesh or model shows.

Model definitions are in `Model/`, helper lemmas in `Lemmas/`, property theorems in `Props/` (one file per family, each
with its independent small specification and `example`s showing that the hypotheses are satisfiable).

## 2. Properties and how each is settled

The kinds of argument used:

| family | properties | modelled code | argument |
|---|---|---|---|
| GOCAD text | C10-C17, C114, C147, C148, C162, C171 | `gocad_common.cpp` | induction over token and line lists |
| TSurf / VSet / PLine | C01-C09, C52, C106, C134, C151, C156-C161, C172, C179-C181, C194, C204, C206 | `ts_*`, `vs_*`, `pl_*` | round trip `read (write m) = m'`; graph-walk invariant for PLine |
| wells | C18-C20, C154, C155, C170, C204, C205 | `well_input.hpp`, `well_dev_input.cpp`, `wl_input.cpp` | induction over lines |
| Voxet | C21, C22, C149, C150, C153, C173 | `vo_input.cpp` | fold over data lines = last matching line |
| GRDECL | C23-C27, C105, C110, C152, C174, C190-C192, C198, C199 | `grdecl_input.cpp` | index arithmetic (mixed radix bijection) |
| DEM, images | C28, C29, C53, C122, C123 | `dem_input.cpp`, `geotiff_input.cpp`, `polytiff_input.cpp` | index arithmetic; cases of the answers of the image libraries |
| FEM mesh | C30-C34, C54-C57, C107-C109, C182, C187 | `fem_output.cpp` | decoder written from the FEFLOW rule, proved left inverse; a small XML grammar for the discrete features; the keyword lines of the whole file |
| sides | C35, C36 | `model/internal/gocad_common.cpp` | BFS invariant |
| ML | C37-C42, C58-C62, C115, C116, C133, C164, C165, C177, C195, C196, C200, C202 | `ml_output_impl.hpp`, `ml_output_structural_model.cpp`, `ml_input.cpp` | counter invariants, round trips |
| LSO | C43-C46, C63-C67, C111-C113, C138, C143, C146, C163, C169, C178, C188, C201, C203 | `lso_output.cpp`, `lso_input.cpp` | numbering invariant, round trip, facet counting |
| shapefiles | C48, C49, C68-C70, C175, C189 | `shp_input.cpp` | state invariant on unique vertices |
| SKUA | C50, C71, C72 | `horizons_stack_skua_input.cpp` | invariant over the nodes read |
| GEOS | C47, C73-C75, C126, C127, C176 | `geos_export.cpp` and the two exporters | map lookups, box invariant |
| FEM model | C51, C76-C80 | `brep_fem_output.cpp` | last write to each element |
| recognition | C81-C83 | `is_loadable` of the text formats | the line looked for is in the file; the reader needs it |
| LSO corners and lines | C88-C96 | `lso_input.cpp` | walk along a permutation of the border edges; invariant on the lines built |
| ML corners and lines | C97-C104, C117-C119, C135-C137, C144, C145, C166, C167, C197 | `ml_output_impl.hpp`, `ml_input.cpp` | walk along a permutation of the border edges; invariants over line starts and vertices; order of the rationals for the tolerance |
| saveable models | C128, C129, C139, C140 | `is_saveable` of `lso_output.cpp`, `ml_output_*.cpp`, `brep_fem_output.cpp`; `fem_output.cpp` | necessary and sufficient condition for the writers to return |
| registration | C120, C121, C186 | the two `common.cpp` and the headers of the classes | finite table; lookup for all extensions |
| paths | C124, C125, C141 | callers of the path functions, `additional_files` | split of a text at its last separator and dot |
| cut and unfinished files | C130-C132, C142, C168 | `ml_input.cpp`, loops of `lso_input.cpp`, `grdecl_input.cpp`, `vo_input.cpp` that test the string | the last line is tracked through the readers; the writer's file is cut at every line |
| ends of lines, comments, blanks | C183-C185, C193 | all readers of text files | each reader commutes with removing the blanks at the ends of the lines, the comments, or the blanks repeated between words |
| stratigraphic LSO | C84-C87 | `strati_lso_input.cpp`, attributes of `lso_input.cpp` | columns follow the vertices read |

A property that the code violates is settled by a theorem that exhibits the violation (a concrete witness run through
the model), plus a `_partial` theorem for the largest class of inputs on which it holds.  Such properties have status
`partial` in the manifest and are listed in section 4.

## 3. Trusted base

* The Lean 4.33.0 kernel; axioms `propext`, `Classical.choice`, `Quot.sound` only.
* That the definitions in `Model/` read the C++ correctly (nothing executes the C++ here).  As a check, the readers of the
  model were run on the text files of `/repo/tests/data`, with exact rational numbers, and gave what the tests of
  `/repo/tests` assert:
  * the six `.ts` files, `points.vs`, the two `.pl` files, the four wells: names and numbers of points and cells;
  * the Voxet: the three values tested; the two `.grdecl` files: numbers of hexahedra and of vertices, points being merged
    when they are equal;
  * `test.lso` and `vri.lso`: numbers of corners, lines, surfaces, blocks, horizons, block internals and attributes, the
    borders of the surfaces being computed by a small program that stands for the mesh library;
  * `modelA4.ml`: numbers of corners, lines, surfaces, blocks, faults, horizons, boundaries and internal components, with
    the same program;
  * the stratigraphic column: name, numbers of horizons and units, relations and contact tested.

  The small files are in `Tests/RepoData.lean`, where the kernel checks these results; they are tests and support no claim.
* Assumed behaviour of external functions:
  * `std::getline` delivers the lines of the file in order; a final line without terminator is delivered too.  At the end
    of the file it empties the string when the last line was finished, and leaves it as it is otherwise
    (`Model/Unfinished.lean`; the other models are about files whose last line is finished).
  * `geode::string_split` cuts at blanks (space, tab, CR, LF) and drops empty pieces.
  * `geode::string_to_index` / `string_to_double` / `string_to_int` throw on malformed text; an index is an unsigned
    decimal below 2^32.
  * `geode::string_starts_with` is the prefix test; `check_keyword` reads one line and throws when it does not start
    with the keyword; `goto_keyword(s)` skips to the first line starting with (one of) the keyword(s) and throws at end
    of file; `goto_keyword_if_it_exists` does the same and returns nothing at end of file; `next_keyword_if_it_exists`
    looks at the next line only and leaves it in place when it does not match.
  * Mesh builders append in call order; calling them with an index out of range is a precondition violation (`ub`).
  * Attribute managers map names to columns; `find_or_create_attribute` returns the existing column of that name.
    The column `points`, where the mesh library keeps the coordinates, is not in the model: files with a property of that
    name are outside of it.
  * `Point3D::string()` prints the three coordinates separated by single blanks.
  * `absl` containers, `std::sort`, `absl::StrJoin`, `absl::StrReplaceAll` behave as documented.
* Assumptions particular to one format:
  * GRDECL: `goto_keyword_if_it_exists` rewinds to the beginning of the file when it fails; points that are never set are
    the origin; pillar interpolation is exact arithmetic in a field; the search of colocated corners satisfies `Merges`.
  * Images: `load_light_regular_grid` makes one cell per pixel, hence (w+1)(h+1) vertices, and `absl::FixedArray<float>(n)`
    is not initialised.
  * FEM: the order of iteration of a hash map is an arbitrary permutation.
  * Sides: volumes are exact integers; identifiers are natural numbers.
  * ML: a line of components with a single token and `std::abs(INT_MIN)` are undefined behaviour; formatted numbers are
    not keywords (`PlainNumbers`).
  * Stratigraphic LSO: `find_attribute` returns null for a column of another type, and using it is undefined behaviour.
  * LSO lines: border edges and `next_on_border` come from the mesh library and satisfy `NextOk` (a one-to-one map whose next edge
    starts where the edge ends); component vertices of lines are met in order of creation.
  * ML lines: same contract (`NextOk`) for both directions of the border; the comparison of points and
    the search of unique vertices at a point are parameters; identifiers are natural numbers.
    `Model/MlTolerance.lean` computes the comparison from the bounding box, with rational numbers for doubles (C197).
  * ML corners: the merging of corner points gives equal points one point near them (`MlCorners.Merges`).
  * GOCAD round trips (C151): a number read from its six written digits is written with the same digits (`Settled`, proved for doubles in
    `Props/Digits.lean`, as are `LawfulNum` and `PlainNumbers`); C149 takes the
    axes of a voxet for vectors, as the GOCAD format does.
  * Voxet: the checks that the mesh library makes in `initialize_grid` are left out.
  * Recognition: `is_loadable` returns 1 or 0; the model has a Boolean.
  * LSO: facets are identified by their sorted vertices; the order of hash maps of
    relations is dropped; `Once`: each vertex of a component mesh is at one unique vertex.
  * Shapefiles: the structures given by GDAL are the input; a part is closed when its first and last points are equal; the
    triangulation of large polygons is a parameter; `create_edge` with missing vertices is undefined behaviour.
  * SKUA: the tree given by pugixml is the input; the model stops before `repair_horizon_stack_if_possible`.
  * GEOS and FEM models: `convert_brep_into_solid` and the bounding-box search are parameters; `find_attribute` with another
    type gives a null pointer; an attribute held by the exporter cannot be replaced by one of another type.
  * Registration: a factory keeps the first class registered for a key.  The formats of the other libraries are not counted.
  * Images: what GDAL and OpenGeode-IO answer about an image are inputs, with the promises of `Images.Trusted`.
  * Paths: `filename_without_extension`, `filepath_without_filename` and `filepath_without_extension` are those of
    `std::filesystem` with `/` as separator; a file can be opened for writing when its directory exists.
  * Saving: `build_model_boundaries` is in another library; the model it makes is an input.
* Not modelled: opening of files, logging, GDAL/shapelib/pugixml (their outputs are the model's inputs), IEEE arithmetic but for rounding,
  geometric predicates (signed volumes are parameters), CMake and the Python bindings.

## 4. Where the code and a property disagree

One item per property that is not proved in full, with the theorems (names relative to `Verif.Props`) that exhibit the
disagreement and those that cover the rest.

* **C03** VSet save/load preserves points and properties. False of the code for the empty point set (empty_not_kept): the saved file has no vertex line and cannot be loaded. roundtrip_partial proves it for every non-empty point set. kept_iff: exactly the non-empty ones are kept.  Theorems: `VSet.roundtrip_partial`, `VSet.empty_throws`, `VSet.empty_not_kept`, `VSet.empty_steals`, `VSet.loadVS_terminates`, `ExactSmall.kept_iff`.
* **C04** PLine save/load preserves the curve. Proved for every curve with at least one edge and no closed loop (any branching, any isolated vertices, any attributes). round_trip_iff says which curves with closed loops are kept: those where the vertex of the file with the index of the first vertex of a loop is this vertex (exactly those when no two vertices are at the same point); a curve that is one loop is kept when its first edge starts at its first vertex (one_loop_iff). False otherwise: the closing segment of a loop is written with the mesh index of its first vertex instead of its number in the file (wrong segment, or undefined behaviour on reload); a curve without edges cannot be reloaded. Coordinates are compared after the rounding of number formatting.  Theorems: `PLine.round_trip_partial`, `PLine.loop_not_preserved`, `PLine.loop_after_isolated_vertices`, `PLine.no_edge_not_reloaded`, `PLineLoops.round_trip_iff`, `PLineLoops.one_loop_iff`.
* **C07** Properties of several objects in one file stay attached to their own vertices. False of the code (properties_overwritten): the values of a later object are written over those of the vertices of the first one. properties_kept_partial proves it when only the first object has properties. other_vertices says what becomes of the values of the other vertices, which depends on the numbers of components. loaded_values: the properties of each object of a .ts file in turn are given to the first vertices of the whole surface. properties_kept_iff: the vertices keep their own values exactly when the last values given to their places are theirs. The same for .vs files whose objects have points.  Theorems: `TSurf.properties_overwritten`, `TSurf.properties_kept_partial`, `TSurf.clash_loaded`, `VSet.properties_overwritten`, `GocadVectors.other_vertices`, `GocadVectors.other_object_loses`, `ManyProps.properties_kept_iff`, `ManyProps.loaded_values`, `ManyProps.last_object_first`, `ManySets.properties_kept_iff`, `ManySets.loaded_values`.
* **C12** Truncated GOCAD objects are reported. Proved for .ts and .vs files cut after any line. False of the code for .pl files cut inside the body (truncated_pl_not_reported) and for cuts inside a line (midline_cut_is_ub). truncated_pl_partial covers .pl files cut before the ILINE line of the first object.  Theorems: `GocadTruncated.truncated_ts`, `GocadTruncated.truncated_vs`, `GocadTruncated.truncated_pl_not_reported`, `GocadTruncated.truncated_pl_accepted`, `GocadTruncated.truncated_pl_silent`, `GocadTruncated.truncated_pl_partial`, `GocadTruncated.midline_cut_is_ub`.
* **C13** A missing closing quote is reported. False of the code (unclosed_not_reported): the missing closing quote is undefined behaviour. closed_ok_partial covers every line whose quotes are closed; cover shows that lines are of one kind or the other. unclosed_iff: splitting is undefined exactly when a quotation is not closed, also after quotations that are; split_iff says what the other lines give, and no exception is ever raised.  Theorems: `GocadText.unclosed_not_reported`, `GocadText.unclosed_is_ub`, `GocadText.closed_ok_partial`, `GocadText.cover`, `QuotesExact.unclosed_iff`, `QuotesExact.split_iff`, `QuotesExact.never_reported`.
* **C16** No undefined behaviour on arbitrary GOCAD text. False of the code (ub_reachable): a blank line is undefined behaviour. The _partial theorems cover files of complete lines without property header whose cells name existing vertices; C172 says for every file when there is undefined behaviour.  Theorems: `GocadUb.ub_reachable`, `GocadUb.blank_line_ts`, `GocadUb.blank_line_vs`, `GocadUb.blank_line_pl`, `GocadUb.dangling_triangle`, `GocadUb.no_ub_ts_partial`, `GocadUb.no_ub_vs_partial`, `GocadUb.no_ub_pl_partial`, `GocadRefused.surface_ub_iff`, `GocadRefused.points_ub_iff`, `GocadRefused.curve_ub_iff`.
* **C18** Point-list wells load as a polyline. Proved for every file with at least one line. False for the empty file (list_empty): the number of edges wraps to 2^32-1. list_outcomes says for every file which of the three outcomes it has.  Theorems: `Wells.list_loaded_partial`, `Wells.list_refused`, `Wells.list_wrong_count`, `Wells.list_cover`, `Wells.list_empty`, `ExactSmall.list_outcomes`.
* **C19** Petrel deviation surveys: columns go to the right attribute. Proved for every column order and any positive number of rows, X, Y, Z appearing once each. False without rows (dev_no_rows) and without one of the titles (dev_missing_title): undefined behaviour.  Theorems: `Wells.dev_loaded_partial`, `Wells.dev_attribute_partial`, `Wells.dev_wrong_row`, `Wells.dev_no_rows`, `Wells.dev_missing_title`, `Wells.dev_no_titles`.
* **C20** GOCAD wells: every path record becomes a vertex. wl_loaded says what is loaded for every file. False in general (wl_first_record_lost): the first PATH record is skipped. wl_all_records_partial: when the first record is the well head itself, nothing is lost.  wl_records_iff: the polyline goes through all records exactly when the first one is the well head; wl_never_all: it never has the reference and then all of them.  Theorems: `Wells.wl_loaded`, `Wells.wl_all_records_partial`, `Wells.wl_first_record_lost`, `Wells.wl_interrupted`, `ExactOrigins.wl_records_iff`, `ExactOrigins.wl_never_all`.
* **C21** Voxet cell data reach the right cell. Proved for every grid with fewer than 2^32 cells and every data file whose lines are about cells of the grid. A line about a cell outside of the grid violates the precondition of cell_index (cell_outside).  Theorems: `Voxet.cell_value_partial`, `Voxet.wrong_count`, `Voxet.cell_outside`.
* **C22** Voxet data file is looked for where it is read. False: additional_files ignores the folder of the .vo file (announced_without_folder) and keeps a final carriage return (announced_with_cr). True for a file of the current folder with one record and no carriage return (announced_partial).  announced_iff: for a file with one record that is loaded, the announced file is the one read exactly when the .vo file is in the current folder and the record does not end with a carriage return.  Theorems: `Voxet.announced_without_folder`, `Voxet.announced_with_cr`, `Voxet.announced_partial`, `ExactOrigins.announced_iff`.
* **C24** GRDECL: corners lie on shared pillars. Positions, sharing and distinctness are proved for every grid. The depth of a corner is proved with exact arithmetic for pillars that are not horizontal; it fails for horizontal ones (horizontal_pillar).  Theorems: `GrdeclCells.corner_points`, `GrdeclCells.hexahedra`, `GrdeclCells.pillars_shared`, `GrdeclCells.pillars_distinct`, `GrdeclCells.interpolate_on_line_partial`, `GrdeclCells.horizontal_pillar`.
* **C25** GRDECL loader terminates on truncated input. False: a missing dimension line or a missing / makes the reader loop for ever, for every such file. True when a whole section is missing. grid_diverge_iff (C174) says exactly which files are read for ever.  Theorems: `GrdeclText.missing_dimensions`, `GrdeclText.missing_end_of_pillars`, `GrdeclText.missing_end_of_depths`, `GrdeclText.missing_section_partial`, `GrdeclRefused.grid_diverge_iff`.
* **C26** GRDECL loader accepts exactly the announced number of values. False: too many values are written out of bounds, too few depths read uninitialised memory, too few pillars are accepted. exact_counts: the announced numbers load. counts_iff: for every numbers, exactly which files load and which are undefined behaviour.  Theorems: `GrdeclText.load_parts`, `GrdeclText.exact_counts`, `GrdeclText.too_many`, `GrdeclText.too_few_pillars`, `GrdeclText.too_few_depths`, `ExactFiles.counts_iff`.
* **C29** DEM polygons are simple. False: the vertices of every polygon are in the order of an hourglass (never_contour), so that neighbours of a row share no edge (row_neighbours_apart). Neighbours of a column share theirs.  Theorems: `Dem.never_contour`, `Dem.row_neighbours_apart`, `Dem.column_neighbours_partial`.
* **C32** FEM nodal properties list all nodes with a non-default value. False: the loop goes over the polyhedra. With fewer elements than nodes the last nodes are missing, with more the attribute is read out of bounds. True exactly when the numbers are equal (nodes_listed_iff).  Theorems: `FemValues.last_node_missing`, `FemValues.nodes_out_of_bounds`, `FemValues.nodes_listed_partial`, `ExactMore.nodes_listed_iff`.
* **C35** Relative orientations are consistent. Agreement is proved when the surfaces can be oriented; refuted for shells that touch along a line (pinched). First sign and connection are proved for every list.  Theorems: `Sides.signs_agree_partial`, `Sides.first_positive`, `Sides.signs_iff_joined`, `Sides.pinched`, `Sides.no_surface`.
* **C36** Universe and block sides are opposite. Proved for closed orientable boundaries listed in any order; refuted for shells that touch along a line. Volumes are exact.  Theorems: `Sides.universe_opposite_partial`, `Sides.universe_inward`, `Sides.regions_outward`, `Sides.pinched_not_opposite`, `Sides.no_boundary`, `Sides.null_volume`.
* **C38** ML regions: boundary and internal surfaces survive save/load. surfaces_kept, for every saved model with sane meshes that loads (see C60): the blocks not named as the universe come back with their boundary and internal surfaces, up to order, when these differ; kept_iff says exactly when they do. Blocks with one boundary surface only are undefined behaviour (C42).  Theorems: `MlBlocks.surfaces_kept`, `MlBlocks.kept_iff`, `MlBlocks.blocks_back`, `MlRoundTrip.round_trip`, `MlCases.full_good`, `MlCases.short_region`.
* **C41** ML loader terminates on truncated region lists. False: every file cut inside a list makes the loader run for ever. Files cut between lists, and lists that meet END, end with an exception. ml_diverge_iff (C168): exactly the files that end inside a list are read for ever.  Theorems: `MlCases.unclosed_not_reported`, `MlCases.unclosed_load_diverges`, `MlCases.end_of_file`, `MlCases.cut_reported_partial`, `MlCases.list_meets_end`, `MlRefused.ml_diverge_iff`.
* **C42** A block bounded by a single surface survives ML save/load. False, and for every model with sane meshes and such a block not named as the universe (one_surface_refused): loading is undefined behaviour (short_region). round_trip covers blocks with at least two numbers.  Theorems: `MlLoads.one_surface_refused`, `MlCases.single_surface_block`, `MlCases.short_region`, `MlRoundTrip.round_trip`.
* **C45** LSO block names with blanks do not mix blocks. False: blocks whose names begin with the same word get the tetrahedra of each other, for every saved model. kept_iff: exactly the blocks whose first word no other block with tetrahedra has keep their own meshes, and exactly those named by one word keep their names.  Theorems: `LsoCases.same_word_mixes`, `LsoCases.names_mixed`, `LsoCases.own_word_partial`, `LsoWords.kept_iff`, `LsoWords.all_kept_iff`.
* **C46** Loaded LSO per-tetrahedron properties stay on their tetrahedra. False: the values are copied through the vertices of the block. Blocks with more vertices than tetrahedra cannot be loaded; tetra_values_partial says what the other ones get. tetra_values_iff: for one property of one value, exactly when the values of the lines numbered as the vertices of the block are those of its tetrahedra.  Theorems: `LsoCases.tetra_property_fails`, `LsoCases.tetra_property_ub`, `LsoCases.tetra_values_partial`, `ExactLast.tetra_values_iff`.
* **C47** GEOS region attribute identifies the region of each cell. Proved for BReps, and for structural models whose blocks are all in a unit (first unit when several). False otherwise: a block outside all units is undefined behaviour (unit_regions_iff). The conversion into a solid is a parameter.  Theorems: `Geos.brep_regions`, `Geos.unit_regions_partial`, `Geos.outside_units_ub`, `ExactMore.unit_regions_iff`.
* **C48** SHP polylines. Proved for parts of at least two points. False for parts of one point, which are undefined behaviour. part_iff: a part is read exactly when it has two points.  Theorems: `Shp.open_part`, `Shp.closed_part`, `Shp.part_segments`, `Shp.line_layer`, `Shp.single_point_ub`, `ExactSmall.part_iff`.
* **C49** SHP point layers give one corner vertex per point. The points are proved. False for the unique vertices: only the first vertex of each corner mesh is associated with a unique vertex. True for layers of one point, and only for them (all_unique_iff).  Theorems: `Shp.corner_points`, `Shp.other_points_loose`, `Shp.single_points_partial`, `Shp.unique_vertices`, `ExactMore.all_unique_iff`.
* **C50** SKUA stacks: units, horizons and contacts. stack_says gives units, names and relations for every column that loads; column_loads says it from the column as it is written, with its parts in any order and anything else between them. False for some combinations of contacts (eroded_twice); contacts_partial covers the others. The repair of the stack by the other library is left out.  Theorems: `Skua.stack_says`, `SkuaColumns.column_loads`, `Skua.text_ignored`, `Skua.strip_blanks`, `Skua.contacts_partial`, `Skua.two_tops_discontinuity`, `Skua.eroded_twice`.
* **C51** BRep FEM export paints apertures of every surface and line. False: when the first surface (or line) has no aperture (or conduit area), none is exported. Proved when the first one has it, which is exactly when it is exported (own_exported_iff). The conversion into a solid is a parameter.  Theorems: `BrepFem.own_painted_partial`, `BrepFem.own_not_painted`, `BrepFem.second_not_painted`, `ExactExports.own_exported_iff`.
* **C53** Surfaces from images have the elevations of the file. False for every image: the array has one value per vertex of a grid with one cell per pixel, and only one per pixel is read from the file; the other ones are used uninitialised. The elevations present in the file are all that a partial theorem could speak of, no run is free of the undefined behaviour.  Theorems: `Dem.poly_uninitialised`.
* **C54** FEM sections announce the number of properties they hold. Proved for nodes. False for elements when an attribute that is not scalar exists (element_count_wrong); element_count_partial says exactly when it is right.  Theorems: `FemValues.nodal_count`, `FemValues.element_blocks`, `FemValues.element_count_wrong`, `FemValues.element_count_partial`.
* **C55** FEM sets list the members of each block. Proved for nodes. False for elements: the keys of the map are views of destroyed strings, undefined behaviour for every mesh with at least one tetrahedron. element_sets_iff says exactly when it is undefined.  Theorems: `FemValues.nodal_sets`, `FemValues.element_sets_ub`, `ExactSmall.element_sets_iff`.
* **C57** FEM material sections list the features of each value. False when the features of a value need two lines of 1500 characters: the lines are glued and the repeated value reads as a feature. Proved when each value needs one line, and only then: the words of every line of every material are given exactly (also for a value that is not the last of its map, whose last line is glued to the first one of the next value), and the content of the map comes back exactly when the features of every value fit in one line.  Theorems: `FemFeatures.material_lines_partial`, `FemFeatures.material_glued`, `FemFeatures.material_lines_glued`, `FemMaterial.material_words`, `FemMaterial.material_read_iff`.
* **C58** ML collections of surfaces survive save/load. Proved when every surface is in one collection. False for a surface in two collections: the second loses it and its next surface gets its triangles. sizes_kept_iff, for every model whose file loads: the collections keep as many surfaces as they had exactly when no surface is twice in them. collections_back gives the numbers of their surfaces. meshes_kept_iff and meshes_kept, for those with sane meshes: every surface keeps its mesh exactly when the first surfaces of each collection have the meshes of those that no collection before it has, hence when these come first; meshes_back says which mesh each surface gets.  Theorems: `MlMeshes.meshes_kept_iff`, `MlMeshes.meshes_kept`, `MlMeshes.meshes_back`, `MlCollections.sizes_kept_iff`, `MlCollections.collections_back`, `MlRoundTrip.round_trip`, `MlCases.shared_surface`, `MlCases.collections_not_kept`.
* **C59** ML fault types and horizon contacts survive save/load. False: only normal and reverse faults keep their type; models with erosion or baselap horizons cannot be saved. types_kept_iff, for every model whose file loads: contacts are kept, and types exactly when no fault has a type other than normal and reverse.  Theorems: `MlCollections.types_kept_iff`, `MlCollections.faults_back`, `MlCollections.horizons_back`, `MlRoundTrip.round_trip`, `MlCases.fault_types_not_kept`, `MlCases.erosion_unsaveable`.
* **C60** Every saved ML file can be loaded. False: a collection without surfaces, two names that differ by a blank, or a block bounded by one surface. saved_loads_iff, for every saved model with sane meshes: the file loads exactly when every written name has a word, the names of the collections and of the surfaces in none differ as they are read, every collection has a surface that no collection before it has, and every block not named as the universe lists two numbers. round_trip says in addition what is kept, for the models of GoodModel.  Theorems: `MlLoads.saved_loads_iff`, `MlRoundTrip.round_trip`, `MlGroups.own_surface`, `MlCases.single_surface_block`, `MlCases.empty_boundary_throws`, `MlCases.merged_names_throw`.
* **C61** ML keeps all the blocks. False exactly for models with a block named "Universe", up to blanks and quotes (blocks_kept_iff, for every model whose file loads). names_back says which names of blocks, units and fault blocks come back. That the file loads is proved for the models of GoodModel (round_trip).  Theorems: `MlNames.names_back`, `MlNames.blocks_kept_iff`, `MlNames.universe_lost`, `MlRoundTrip.round_trip`, `MlCases.universe_block_lost`.
* **C62** ML adds no collection. False: each surface without collection comes back in a model boundary of its own, and all of them in another one. boundaries_added, for every model whose file loads: as many model boundaries as before, one for each surface in no collection, and perhaps another one. True, by round_trip, when every surface is in a collection.  Theorems: `MlCollections.boundaries_added`, `MlCollections.boundaries_back`, `MlRoundTrip.round_trip`, `MlCases.loose_surfaces_collected`.
* **C64** LSO keeps the kind of each collection. False: every collection comes back as a horizon. Names and surfaces are kept. horizons_kept_iff: the horizons are those of the model exactly when it has no fault and no model boundary.  Theorems: `LsoRoundTrip.collections_become_horizons`, `LsoCases.fault_becomes_horizon`, `ExactExports.horizons_kept_iff`.
* **C66** Models that .lso cannot hold are refused with an exception. False: a vertex outside all blocks or a block without boundary surface is undefined behaviour. saved_vertices and saved_boundaries say what every saved model has. outcomes says exactly when saving is undefined and when it throws.  Theorems: `LsoNumbers.saved_vertices`, `LsoNumbers.loose_surface_ub`, `LsoCases.saved_boundaries`, `LsoCases.no_boundary_ub`, `LsoCases.uncollected_throws`, `LsoSaving.outcomes`.
* **C67** LSO files that follow the format load. False for triangles that use the number of a shared vertex and for solids without tetrahedra. load_save: saved models of Loadable are loaded. lso_ub_iff (C169) says exactly which files have undefined behaviour.  Theorems: `LsoCases.shared_number_ub`, `LsoCases.no_tetra_ub`, `Verif.Lso.load_save`, `LsoRefused.lso_ub_iff`.
* **C68** SHP polygons. Closed exterior rings are proved. False for interior rings, which become polygons, and for unclosed rings, which lose a point. ring_iff: rings of at most 255 points become a polygon through their points exactly when closed.  Theorems: `Shp.closed_ring`, `Shp.large_ring`, `Shp.rings_are_polygons`, `Shp.open_ring_loses`, `Shp.hole_filled`, `ExactFiles.ring_iff`.
* **C69** SHP layers are never dropped silently. False: layers of other kinds are skipped. components says what each known layer gives. layers_kept_iff: every layer gives a component exactly when none is of another kind.  Theorems: `Shp.components`, `Shp.unknown_layer_skipped`, `Shp.missing_geometry_throws`, `ExactRest.layers_kept_iff`.
* **C71** SKUA columns are recognised however they are written. False: recognition depends on the position of the text in the lines of the file. recognised_iff says exactly which files are recognised.  Theorems: `Skua.recognised`, `Skua.not_recognised`, `ExactExports.recognised_iff`.
* **C73** GEOS cell properties. Values and selection are proved for every export that succeeds, and exports succeed for properties of the right type. False for a property with another number of components (undefined behaviour). transfer_iff says for each property exactly whether it is exported, refused or undefined.  Theorems: `Geos.properties_transferred`, `Geos.requested`, `Geos.export_ok`, `Geos.wrong_dimension_ub`, `Geos.region_name_throws`, `GeosExact.transfer_iff`.
* **C74** GEOS list of fields. Proved for names without comma. False for names with one (fields_decoded_iff): the text does not tell them apart.  Theorems: `Geos.fields_text`, `Geos.fields_decoded`, `Geos.comma_splits`, `ExactExports.fields_decoded_iff`.
* **C75** GEOS well boxes. Proved for perforations in the bounding box of a cell. Perforations outside all cells are ignored, and a well of such perforations gets an inverted box. box_iff: a box has bounds exactly when a perforation is in the bounding box of a cell.  Theorems: `Geos.perforations_in_box_partial`, `Geos.nearest_selected`, `Geos.outside_well_empty`, `ExactSmall.box_iff`.
* **C77** BRep FEM export names the facets and edges of named surfaces and lines. False: names are painted with the attributes, so a named surface or line without painted attribute is No_name. name_carried_iff: an element of a single component has its name exactly when a painted attribute is there.  Theorems: `BrepFem.names_painted_partial`, `BrepFem.name_lost`, `ExactExports.name_carried_iff`.
* **C79** BRep FEM export lists the blocks of each vertex once. False for every block with two vertices at one vertex of the solid. Proved for the other ones (listed_once_iff).  Theorems: `BrepFem.vertices_labelled`, `BrepFem.block_listed_twice`, `BrepFem.block_listed_once_partial`, `ExactExports.listed_once_iff`.
* **C80** BRep FEM export copies the attributes of the blocks. Own values are proved. False for blocks without the attribute, which get the first value of another block, and for blocks without tetrahedra, which are undefined behaviour.  Theorems: `BrepFem.attributes_copied`, `BrepFem.value_copied`, `BrepFem.foreign_value`, `BrepFem.foreign_witness`, `BrepFem.empty_block_ub`.
* **C82** Files that are not recognised are refused. Proved for .wl, .dev, .vo, .grdecl, .ml and .lso; every .txt and .dat file is recognised (points_recognised). False for .ts, .vs and .pl: every such file is loaded as an empty mesh.  Theorems: `Recognise.wl_refused`, `Recognise.dev_refused`, `Recognise.voxet_refused`, `Recognise.grdecl_refused`, `Recognise.ml_refused`, `Recognise.lso_refused`, `Recognise.ts_empty`, `Recognise.vs_empty`, `Recognise.pl_empty`, `Recognise.meshes_not_refused`, `Recognise.points_recognised`.
* **C83** Recognised deviation surveys are read wherever their title is. False: the title is looked for in the whole file, but read on the first line only. refused_for_place_iff: the surveys that are refused because of the place of their title are exactly those with a line before it that are not refused when it is moved to the first line. Files with only the first words of the title, by which surveys are recognised, are refused wherever it is.  Theorems: `Recognise.dev_title_first`, `Recognise.dev_recognised_refused`, `DevTitle.refused_for_place_iff`, `DevTitle.place_partial`, `DevTitle.not_place_free`, `DevTitle.titled`, `DevTitle.untitled`, `DevTitle.short_title`.
* **C86** LSO files without stratigraphic coordinates are refused. Missing properties are proved to throw. False for other sizes: undefined behaviour. For files with different names of properties, refused_iff says exactly when there is an exception and loaded_iff when the behaviour is undefined.  Theorems: `StratiLso.missing_property_throws`, `StratiLso.other_size_ub`, `StratiExact.refused_iff`, `StratiExact.loaded_iff`.
* **C87** LSO files recognised as stratigraphic can be loaded. False: names that only contain the expected names are recognised. recognised_mentions says what every recognised file has, and loaded_iff which files with the two properties are loaded.  Theorems: `StratiLso.recognised_mentions`, `StratiLso.recognised_refused`, `StratiExact.loaded_iff`.
* **C90** Borders of LSO surfaces are covered by lines. Proved for loops with a corner, when borders through a vertex that is not a corner follow the same edges. False for loops without corner: they get no line. covered_iff: under that condition an edge is on a line exactly when its loop has a corner.  Theorems: `LsoLines.corner_edges_covered`, `LsoLines.borders_covered_partial`, `LsoLines.loop_without_corner`, `LsoLines.alone_not_covered`, `LsoCovered.covered_iff`, `LsoCovered.all_covered_iff`.
* **C91** LSO lines do not share edges. Proved when borders through a vertex that is not a corner follow the same edges. False in general.  Theorems: `LsoLines.lines_disjoint_partial`, `LsoLines.shared_edge`, `LsoLines.lines_not_disjoint`.
* **C93** LSO lines with the surface on both sides are internal. Proved for lines that do not come back along their first edge. False at the end of a slit.  Theorems: `LsoLines.two_sides_internal_partial`, `LsoLines.slit_end`, `LsoLines.two_sides_not_internal`.
* **C94** LSO corners stand where the surfaces change. Proved when no surface has two vertices at the same place. False otherwise: the comparison is one-sided.  Theorems: `LsoLines.corners_where_surfaces_change_partial`, `LsoLines.corners_one_sided`.
* **C97** ML line starts cover the borders. starts_first_loop says what is written for every surface. starts_diverge_iff: for borders that are not sound, writing goes on for ever exactly when the first edge is never reached again. Complete for borders of one loop; the corners of the other loops are not written.  Theorems: `MlLines.starts_first_loop`, `MlLines.starts_complete_partial`, `MlLines.hole_corner_lost`, `MlLines.starts_diverge_iff`.
* **C102** ML lines are boundaries or internal to surfaces as often as met. Proved for surfaces with at least two line starts. False for a single one: the line gets no relation. relations_right_iff: exactly the surfaces with a single line start are wrong.  Theorems: `MlLines.relations_right_partial`, `MlLines.single_line_unrelated`, `MlExactLines.relations_right_iff`.
* **C104** Lines inside ML surfaces become internal. internals_lie says which lines are made internal, for every surface. False for a surface with a single line, its boundary, which is made internal.  Theorems: `MlLines.internals_lie`, `MlLines.single_line_internal`.
* **C105** Sections of included GRDECL files are read. included says, for all inclusions, what is read from where. The section is found when the name has it between an underscore and a dot; false for the other names, which are not used, and for names with blanks, which are cut.  Theorems: `GrdeclIncludes.included`, `GrdeclIncludes.included_sections_partial`, `GrdeclIncludes.missing_file`, `GrdeclIncludes.plain_name_ignored`, `GrdeclIncludes.blank_name_cut`.
* **C109** FEM files hold each section once and in order. False when an attribute is named as a keyword. Proved when no written attribute is, and no name has an end of line. The dimensions are proved for every mesh. sections_in_order_iff: when no name has an end of line, it holds exactly for the meshes without a written attribute named as a keyword; all_keys lists the keyword lines of every file.  Theorems: `FemFile.sections_in_order_partial`, `FemFile.attribute_named_end`, `FemFile.dimensions_announced`, `FemSections.sections_in_order_iff`, `FemSections.all_keys`.
* **C110** A corner point grid has the dimensions of its SPECGRID section. False when a comment follows SPECGRID: it is refused. Proved without comments in the section. dimensions_iff says exactly when the dimensions are those of the section.  Theorems: `GrdeclDims.dimensions_partial`, `GrdeclDims.dimensions_from`, `GrdeclDims.comment_refused`, `GrdeclDims.other_type`, `GrdeclDims.never_ub`, `GrdeclDims.dimensions_not_read`, `ExactFiles.dimensions_iff`.
* **C111** LSO shared vertices are the vertices they refer to. False: exactly the files in which all the lines up to those referred to are new points are right (shared_right_iff), as when the new vertices come first; among the others, exactly those with a shared vertex that refers to a line at or beyond the number of new points so far have undefined behaviour (shared_ub_iff), and the rest silently give the unique vertex of another line.  Theorems: `LsoFile.shared_read_partial`, `LsoFile.beyond_uniques_ub`, `LsoFile.mixed_ub`, `LsoFile.mixed_wrong`, `LsoFile.shared_not_read`, `LsoShared.shared_right_iff`, `LsoShared.shared_ub_iff`.
* **C112** LSO regions give one block each. regions_up_to says, for all lines, which regions are read. False when another line lies between two regions (regions_read_iff): those after it are dropped.  Theorems: `LsoFile.regions_read_partial`, `LsoFile.regions_up_to`, `LsoFile.regions_not_read`, `LsoFile.nameless_ub`, `ExactMore.regions_read_iff`.
* **C114** GOCAD files describe each property class they announce. Proved for names of one word. False for names of several words, quoted when announced and not in the section: described says which classes have a section, for all names that the header keeps.  Theorems: `GocadClasses.classes_described_partial`, `GocadClasses.header_columns`, `GocadClasses.no_header`, `GocadClasses.two_words`, `GocadClasses.classes_not_described`, `GocadClasses.coordinate_name`, `ClassesExact.described`, `ClassesExact.described_iff`.
* **C116** ML lines with missing words are reported. False: it is undefined behaviour. missing_words_partial says exactly when, at every place of a section outside of the lists; a section with all its words has none there.  Theorems: `MlFile.missing_words`, `MlFile.missing_words_partial`, `MlFile.missing_not_reported`, `MlFile.unknown_tsurf`.
* **C119** ML corner and line start records are checked. False: numbers that are no vertex are undefined behaviour, and a next vertex of another face is a wrapped number. Whatever is read in a file otherwise is on its surface: stone_on_surface, start_on_surface. start_checked_iff: the next vertex of a line start is on its surface exactly when it is in the face of its first vertex.  Theorems: `MlCorners.stone_on_surface`, `MlCorners.start_on_surface`, `MlCorners.records_not_checked`, `MlCorners.stone_not_reported`, `MlCorners.border_not_reported`, `MlCorners.other_face_not_reported`, `ExactLast.Starts.start_checked_iff`.
* **C120** Every reader and writer is used for the files of its extensions. False: the reader of stratigraphic models is never registered. Proved for all the other classes, with distinct extensions in each factory.  Theorems: `Registry.formats_iff`, `Registry.reachable_partial`, `Registry.not_all_reachable`, `Registry.stratigraphic_never`, `Registry.entry_once`, `Registry.nothing_ignored`, `Registry.found_fits`.
* **C121** Formats written can be read as the same kind of object. False for .fem files and for boundary representations, which this library does not read. Proved for all the other kinds and extensions.  Theorems: `Registry.read_back_partial`, `Registry.not_all_read_back`, `Registry.never_read_back`.
* **C122** Loading an image leaves the log level unchanged. False: an exception of the image library leaves the log at critical, for good. geo_level and poly_level say exactly when.  Theorems: `Images.geo_level`, `Images.poly_level`, `Images.geo_level_partial`, `Images.geo_level_lost`, `Images.poly_level_lost`, `Images.level_stays_lost`.
* **C123** Image files recognised are loaded. Proved for DEM and GeoTIFF, under Trusted. False for PolyTIFF: every image recognised is undefined behaviour (see C53).  Theorems: `Images.dem_recognised`, `Images.dem_refused`, `Images.geo_recognised`, `Images.poly_recognised_ub`, `Images.poly_refused`, `Images.poly_outcomes`, `Images.geo_outcomes`, `Images.percents`.
* **C124** Names taken from paths are those of the files. Proved for names of wells and index files, and for data files named without separator. False for a data file named from the root: the directory is put before it. data_named_iff: the data file is the one named exactly when the first file is named without directory.  Theorems: `Paths.well_named`, `Paths.companion_named`, `Paths.data_beside`, `Paths.path_whole`, `Paths.absolute_partial`, `Paths.absolute_moved`, `ExactRest.data_named_iff`.
* **C125** FEM saving creates the directories of its file. False: the directory of the literal "filename" is created, which is none. created_opens: creating that of the file before opening it would do. directories_partial says that saving succeeds exactly in directories that exist.  Theorems: `Paths.directories_partial`, `Paths.directories_not_created`, `Paths.created_opens`, `Paths.created_exactly`.
* **C126** GEOS export files are distinct, named and placed as the document says. Proved but for the prefix, which is cut at a dot of the name of the directory and empty when the directory is written with an ending separator.  Theorems: `GeosFiles.files_distinct`, `GeosFiles.files_in_directory`, `GeosFiles.mesh_file_named`, `GeosFiles.boxes_named`, `GeosFiles.prefix_partial`, `GeosFiles.files_named_partial`, `GeosFiles.prefix_cut`.
* **C127** GEOS boxes as written hold the perforations of their well. Proved when the text of the bounds is exact, and for doubles when the bounds are at most 19. False in general: six digits are too few for the safety offset of a ten-thousandth; a box a thousand kilometres from the origin misses its perforation by four metres (box_misses).  Theorems: `GeosFiles.box_read`, `GeosFiles.written_box_partial`, `GeosFiles.written_box_misses`, `Digits.small_box_partial`, `Digits.box_misses`.
* **C128** LSO models reported as saveable are saved. False: surfaces in no collection throw, surfaces that touch no block are undefined behaviour. lso_saved_iff says exactly which sound models are saved.  Theorems: `Saveable.lso_saved_iff`, `Saveable.lso_saveable_partial`, `Saveable.lso_saveable_not_saved`, `Saveable.lso_reported_iff`, `LsoSaving.outcomes`.
* **C129** ML models reported as saveable are saved. False: two contact types, surfaces of other collections and surfaces without triangles. ml_saved_iff says, for every model, exactly when it is saved; polygons that are not triangles are always refused. MlSaving.outcomes says, for models without the two kinds of horizons, exactly when saving is undefined and when it throws.  Theorems: `Saveable.ml_saved_iff`, `Saveable.ml_saveable_partial`, `Saveable.ml_saveable_not_saved`, `Saveable.ml_polygons`, `MlSaving.outcomes`.
* **C130** Truncated LSO files are reported. False: a file cut after its line MODEL is loaded without some of its surfaces and blocks (cut_loads says which blocks are left), a file cut in the vertices is undefined behaviour. Files cut before the line MODEL are never loaded. cut_loaded_iff: a file cut at the end of a line is loaded exactly when its line MODEL is left.  Theorems: `LsoCut.cut_reported_partial`, `LsoCut.cut_loads`, `LsoCut.cut_not_reported`, `LsoCut.cut_ends`, `ExactRest.cut_loaded_iff`.
* **C131** Reading an LSO file ends. False: a file that ends after SURFACE, TFACE or MODEL_REGION without a line feed is read for ever. ends_partial: reading ends for all other texts (also excepting a last line MODEL), cut_unfinished says what happens to every saved file that is cut. endless_iff: exactly which of these cut files are read for ever.  Theorems: `LsoCut.ends_partial`, `LsoCut.cut_unfinished`, `LsoCut.whole_unfinished`, `LsoCut.not_ends`, `LsoCut.cut_ends_unfinished`, `ExactFiles.endless_iff`.
* **C132** The last line feed of GRDECL and Voxet data files does not matter. Proved for grids that load and do not end with an INCLUDE, and for data files of two lines or more. False otherwise: a grid cut in its pillars or depths writes out of bounds instead of reading for ever, and a data file of one line takes it for the line of names. data_feed_iff: the line feed of a data file matters exactly when it has one line, of four words or more.  Theorems: `GrdeclUnfinished.feed_irrelevant_partial`, `GrdeclUnfinished.feed_relevant`, `GrdeclUnfinished.pillars_cut`, `GrdeclUnfinished.pillarsEnd_throw`, `GrdeclUnfinished.depths_cut`, `GrdeclUnfinished.load_true`, `GrdeclUnfinished.readData_feed`, `GrdeclUnfinished.one_line`, `DataFeed.data_feed_iff`.
* **C137** The vertices along all the lines of an ML surface are tied to the lines. Proved for two lines or more, none met more than twice. False for a single line: nothing is tied (its vertices are found later by their place). pieces_tied_iff: exactly when there is not a single one. pieces_together: the pieces of one line are next to each other when they are tied.  Theorems: `MlUniques.pieces_tied_partial`, `MlUniques.pieces_not_tied`, `MlExactLines.pieces_tied_iff`, `ColumnsSorted.pieces_sorted`, `ColumnsSorted.pieces_together`.
* **C139** Meshes are saved in FEFLOW files. mesh_saved_iff says, for every mesh, exactly when it is saved. False when elements have names of blocks, or when a scalar property of the nodes has fewer values than there are elements: undefined behaviour.  Theorems: `BrepFemFile.mesh_saved_iff`, `BrepFemFile.mesh_ub`, `BrepFemFile.mesh_throws`.
* **C140** Boundary representations reported as saveable are saved in FEFLOW files. False of every model with a polyhedron: the polyhedra are given names, whose sets are undefined behaviour. model_saved_partial: a sound model is saved but for these sets. The conversion into a solid is a parameter.  Theorems: `BrepFemFile.every_model_ub`, `BrepFemFile.saveable_iff`, `BrepFemFile.saveable_not_saved`, `BrepFemFile.model_saved_partial`, `BrepFemFile.model_saved_iff`.
* **C141** What is loaded depends on the listed files only. False: included files of .grdecl files are not listed, and the data file of a .vo file is listed without its folder. grdecl_depends and vo_depends say what the result depends on. The models of the other readers have no other file.  Theorems: `Additional.grdecl_unlisted`, `Additional.grdecl_listed_partial`, `Additional.grdecl_depends`, `Additional.vo_unlisted`, `Additional.vo_listed_partial`, `Additional.vo_depends`.
* **C145** Borders of surfaces saved in ML files are on lines once loaded. False for models where a border with one corner meets another border elsewhere (one_corner_refused). Proved when at most one border vertex is at the place of a vertex inside a surface or on a border with one corner, and no three border edges of a surface are at one place; without the first condition loading may be refused, and keeps the borders otherwise.  Theorems: `MlWhole.models_loaded`, `MlWhole.borders_kept`, `MlWhole.one_corner_refused`.
* **C147** Names of GOCAD objects come from the line with the key name. False: any line with `name:` in it gives the name, such as one with the key `colormap_name`, and the last one counts (key_names_fail). header_read says which name is read in all cases. key_names_iff says exactly when the line with the key gives the name.  Theorems: `GocadHeaders.header_read`, `GocadHeaders.header_refused`, `GocadHeaders.key_names_fail`, `GocadHeaders.key_names_partial`, `ExactLast.key_names_iff`.
* **C148** Coordinate systems of GOCAD files are read and kept. False for the names and units of the axes, which are written and never read (crs_kept_fails). Lines without a word, and keys without value, are undefined behaviour (crs_readable gives the sections that are read).  Theorems: `GocadHeaders.crs_read`, `GocadHeaders.crs_readable`, `GocadHeaders.crs_kept_fails`, `GocadHeaders.crs_kept_partial`.
* **C149** Voxets are loaded with the grid of their axes. False: the axes, vectors in the GOCAD format, are taken for points, so that cell lengths are wrong unless the origin is zero (vector_axes_fail), and an AXIS_NAME line before the size is taken for it (size_found_fails). grid_read says which grid is read in all cases; a size line without three numbers is undefined behaviour (grid_ub). That the axes are vectors is a fact about the format, not stated in the code.  Theorems: `VoxetGrid.grid_read`, `VoxetGrid.grid_ub`, `VoxetGrid.grid_outcomes`, `VoxetGrid.vector_axes_fail`, `VoxetGrid.vector_axes_partial`, `VoxetGrid.size_found_fails`, `VoxetGrid.size_found_partial`.
* **C150** Depths of voxets become elevations. False: the coordinate system is read and not used (depths_read_fail). True for coordinate systems in elevation.  depths_iff: for any file that is loaded, the coordinate is right exactly when the third axis points upwards or the coordinate is its own opposite.  Theorems: `VoxetGrid.head_parts`, `VoxetGrid.depths_read_fail`, `VoxetGrid.depths_read_partial`, `ExactOrigins.depths_iff`.
* **C151** Saving again a GOCAD mesh that was loaded gives the same file. Proved for surfaces and for point sets, and for curves without properties that have no closed loop, or whose segments are kept by saving and loading (pl_kept_stable, vertices being at different points; PLineLoops.round_trip_iff says which curves these are). False for the other curves: properties are written and not read (pl_properties_lost), and closed loops that are not kept change (pl_loop_changes). Formatting is assumed to be settled: writing what was read from a written number gives the same text (class Settled); this is proved for doubles written with six digits (Digits.ts_saved_again, Digits.vs_saved_again).  Theorems: `GocadStable.ts_stable`, `GocadStable.ts_reload`, `GocadStable.vs_stable`, `GocadStable.vs_reload`, `GocadStable.pl_stable`, `PLineStable.pl_kept_stable`, `GocadStable.pl_properties_lost`, `GocadStable.pl_loop_changes`, `GocadStable.order_matters`, `Digits.ts_saved_again`, `Digits.vs_saved_again`.
* **C153** The data files of voxets that load are those whose lines are about cells of the grid. All outcomes are described for grids of less than 2^32 cells. Partial: a line about a cell outside of the grid is undefined behaviour, not an exception (data_ub says exactly when).  Theorems: `VoxetData.data_loaded`, `VoxetData.data_values`, `VoxetData.data_ub`, `VoxetData.data_outcomes`, `VoxetData.no_titles`, `VoxetData.voxet_loaded`.
* **C154** The outcome of every deviation survey is known. True when each of X, Y and Z is titled once and there is a row (dev_loads_partial, dev_refused_partial). False otherwise: without one of the titles, positions never assigned are compared (dev_titles_missing), and with a title twice the rows that load have one number less and go to the wrong attributes, or are read out of bounds (dev_title_repeated, dev_title_repeated_ub). dev_loads_iff says which surveys load for all titles. Surveys of at most 2^32 rows, one line of titles between the rules.  Theorems: `WellOutcomes.dev_loads_iff`, `WellOutcomes.dev_loads_partial`, `WellOutcomes.dev_refused_partial`, `WellOutcomes.dev_few_titles`, `WellOutcomes.dev_titles_missing`, `WellOutcomes.dev_title_beyond`, `WellOutcomes.dev_title_repeated`, `WellOutcomes.dev_title_repeated_ub`.
* **C155** The outcome of every GOCAD well is known. wl_loads_iff says which files load, wl_outcomes_partial that the others are refused unless a line of the coordinate system cannot be read, which is undefined behaviour. False: the first record is not looked at, nor are those after a line that is not a record (records_checked_fails).  Theorems: `WlOutcomes.wl_loads_iff`, `WlOutcomes.wl_outcomes_partial`, `WlOutcomes.wl_bad_record`, `WlOutcomes.records_checked_fails`.
* **C159** Segments and triangles join vertices of their own object. False: a number before the first vertex of an object is a vertex of the object before (joined_loads). True for the first object of a file (first_object) and, in the others, for the numbers that are not before the first vertex (own_vertices_partial). Files of at most 2^32 vertices.  Theorems: `CurveOutcomes.own_vertices_fails`, `CurveOutcomes.own_vertices_partial`, `CurveOutcomes.first_object`, `CurveOutcomes.joined_loads`, `CurveOutcomes.first_object_ub`, `CurveOutcomes.earlier_vertex`, `SurfaceOutcomes.own_vertices_fails`, `SurfaceOutcomes.own_vertices_partial`, `SurfaceOutcomes.first_object`, `SurfaceOutcomes.joined_loads`, `SurfaceOutcomes.first_object_ub`.
* **C161** Each title line of a GOCAD file starts an object. False: the sections are searched beyond the object, so that an object without ILINE, TFACE or vertex takes those of the next one, whose name is lost (one_each_fails), and without END the segments of the next one join the vertices of the first (noEnd_loads). True when the file is made of parts with one title that can be read alone; there are never more objects than titles (one_each_partial).  Theorems: `GocadFiles.Curve.one_each_fails`, `GocadFiles.Curve.one_each_partial`, `GocadFiles.Curve.noIline_loads`, `GocadFiles.Curve.noEnd_loads`, `GocadFiles.Surface.one_each_fails`, `GocadFiles.Surface.one_each_partial`, `GocadFiles.Surface.noTface_loads`, `GocadFiles.Points.one_each_fails`, `GocadFiles.Points.one_each_partial`, `GocadFiles.Points.noPoint_loads`.
* **C162** The property headers that are read are known. header_iff says which headers are read and what they give. False for the exception: with less entries than properties, or a quotation that is not closed, the words are read out of bounds (one_unit_ub, quoted_ub); header_outcomes_partial gives the exception in the other cases.  Theorems: `PropHeaders.header_iff`, `PropHeaders.quoted_iff`, `PropHeaders.quoted_ub`, `PropHeaders.header_outcomes_partial`, `PropHeaders.one_unit_ub`, `PropHeaders.no_unit_throws`.
* **C165** ML objects are found by their names. False: the names of the objects are not looked at, the k-th object is for the k-th group (swapped_loads, found_by_name_fails). found_by_name_partial: the meshes follow the groups, and every surface has exactly one.  Theorems: `MlOutcomes.found_by_name_fails`, `MlOutcomes.found_by_name_partial`, `MlOutcomes.swapped_loads`.
* **C167** Boundary lines of ML surfaces are not internal to them. False when two vertices of a surface are at one place of a boundary line: the line is found at the second one and made internal. True when no vertex that is not reached is at the place of a line, for the lines with one start on a surface with at least two.  Theorems: `MlRelations.boundary_only_fails`, `MlRelations.boundary_only_partial`.
* **C168** ML files that do not load are refused. False: ml_ub_iff says which files have undefined behaviour (an incomplete line, the smallest integer in a list, a region with less than two numbers or with a number that is not of a surface, an object with less faces than its group or with a triangle between faces, an object that cannot be read, see C16 and C158) and ml_diverge_iff which files are read for ever (those that end inside a list). All the others load or are refused.  Theorems: `MlRefused.refused_fails`, `MlRefused.refused_partial`, `MlRefused.ml_ub_iff`, `MlRefused.ml_diverge_iff`, `MlRefused.step_ub`, `MlRefused.create_defined`.
* **C169** LSO files that do not load are refused. False: lso_ub_iff says which files have undefined behaviour (a vertex, tetrahedron, triangle, surface or region whose line lacks words, the number of a vertex that does not exist or has no line of its own, no tetrahedron, fewer tetrahedra than vertices when tetrahedra have properties, a header that cannot be read, see C148 and C162). All the others load or are refused; for the text of the last line see C131.  Theorems: `LsoRefused.refused_fails`, `LsoRefused.refused_partial`, `LsoRefused.lso_ub_iff`, `LsoRefused.lso_ends`, `LsoRefused.vertex_ub`, `LsoRefused.tetra_ub`, `LsoRefused.surfaces_ub`, `LsoRefused.blocks_ub`.
* **C170** Deviation surveys that do not load are refused. False: dev_ub_iff says which files have undefined behaviour (a name line of less than four words, a first line of titles without X, Y or Z, no row, no line of titles and a first row of three words, a first faulty row with the column of a coordinate beyond its values). refused_partial: the other files that do not load are refused. dev_loads_iff_all extends C154 to any number of lines of titles.  Theorems: `DevRefused.refused_fails`, `DevRefused.refused_partial`, `DevRefused.dev_ub_iff`, `DevRefused.dev_loads_iff_all`, `DevRefused.dev_ends`, `DevRefused.row_cases`.
* **C171** Coordinate systems and property headers that cannot be read are refused. False: crs_ub_iff says which coordinate systems have undefined behaviour (a blank line, or a line without the words or quotes it needs, before the end), header_ub_iff which property headers (a line of names, sizes, units, ranges or values with fewer entries than there are properties, or without the quotes it needs). All the others are read or refused.  Theorems: `HeadersRefused.crs_ub_iff`, `HeadersRefused.header_ub_iff`, `HeadersRefused.system_refused_partial`, `HeadersRefused.system_refused_fails`, `HeadersRefused.header_refused_partial`, `HeadersRefused.header_refused_fails`.
* **C172** Curves, point sets, surfaces and wells that do not load are refused. False: the four _ub_iff theorems say, for every file, when loading has undefined behaviour (a header of C171, a blank line inside an object, a line without the words it needs, a segment or triangle with a vertex that is not loaded); lso_header_iff and ml_system_iff say it for the headers of C168 and C169. All the other files load or are refused (for wells with C155).  Theorems: `GocadRefused.curve_ub_iff`, `GocadRefused.points_ub_iff`, `GocadRefused.surface_ub_iff`, `GocadRefused.well_ub_iff`, `GocadRefused.curve_refused_partial`, `GocadRefused.points_refused_partial`, `GocadRefused.surface_refused_partial`, `GocadRefused.curve_refused_fails`, `GocadRefused.points_refused_fails`, `GocadRefused.surface_refused_fails`, `GocadRefused.well_refused_fails`, `GocadRefused.lso_header_iff`, `GocadRefused.ml_system_iff`.
* **C173** Voxets that do not load are refused. False: voxet_ub_iff says which files have undefined behaviour (a coordinate system of C171, a size line without its words, a data line about a cell outside of the grid). voxet_loads_iff says which files load and voxet_is what is loaded; all the others are refused. For the line of a data file without a line feed at its end see C130 to C132.  Theorems: `VoxetRefused.voxet_loads_iff`, `VoxetRefused.voxet_is`, `VoxetRefused.voxet_ub_iff`, `VoxetRefused.refused_partial`, `VoxetRefused.refused_fails`, `VoxetRefused.record_name`, `VoxetRefused.record_quoted`, `VoxetRefused.head_ub`.
* **C174** Corner point grids that do not load are refused. False: grid_ub_iff says which files have undefined behaviour (a pillar too many or an incomplete one, a depth too many or too few), grid_diverge_iff which are read for ever (no line with the letter of the dimensions, a section without an end), grid_loads_iff which load. All the others are refused.  Theorems: `GrdeclRefused.grid_loads_iff`, `GrdeclRefused.grid_ub_iff`, `GrdeclRefused.grid_diverge_iff`, `GrdeclRefused.refused_partial`, `GrdeclRefused.refused_fails`, `GrdeclRefused.dims_iff`, `GrdeclRefused.dims_diverge`, `GrdeclRefused.pillars_ok`, `GrdeclRefused.pillars_ub`, `GrdeclRefused.pillars_diverge`, `GrdeclRefused.depths_cases`.
* **C175** Shapefiles that do not load are refused. False: shp_ub_iff says which files have undefined behaviour (the first feature at fault has a part of a line of less than two points or a ring without point). shp_loads_iff and shp_throw_iff say which files load and which are refused; refused_partial is for the files without such parts and rings. GDAL is outside of the model: the layers and features are given.  Theorems: `ShpRefused.shp_loads_iff`, `ShpRefused.shp_ub_iff`, `ShpRefused.shp_throw_iff`, `ShpRefused.refused_partial`, `ShpRefused.refused_fails`.
* **C176** Exports for GEOS that are not made are refused. False: a property asked for with another number of components than that of some block, or a block outside of all units, is undefined behaviour (brep_export_iff, model_export_iff). The property with the name of the regions is refused. refused_partial: without such properties and blocks the export is made or refused.  Theorems: `GeosRefused.prepare_iff`, `GeosRefused.brep_export_iff`, `GeosRefused.model_export_iff`, `GeosRefused.refused_partial`, `GeosRefused.refused_fails`.
* **C177** Saving and loading an ML model a second time changes nothing. False: surfaces in no collection come back in two model boundaries, one of their own and "undefined boundary", and no file saved from a model with these two loads (unstable, for any order of the boundaries). Proved for the models of GoodModel whose surfaces are all in a collection, and stable_iff: for no others. The sides of the surfaces and the line starts of the loaded model are given.  Theorems: `MlStable.stable_partial`, `MlStable.stable_iff`, `MlStable.unstable`, `MlStable.stable_fails`.
* **C178** Saving and loading an LSO model a second time changes nothing. False: a vertex of a block that no tetrahedron has is a unique vertex of the loaded model without block vertex, and saving that model is undefined; so it is when a block is loaded without boundary. Proved for the models of GoodModel (read back, blocks with one-word names and identifiers that differ) whose unique vertices are corners and whose blocks are loaded with a boundary; stable_iff: for no others. bounded_iff says which blocks have a boundary for surfaces without a common triangle. The sides of the surfaces, the identifiers of the blocks and the model boundaries made when loading are arbitrary.  Theorems: `LsoStable.stable_partial`, `LsoStable.stable_iff`, `LsoStable.bounded_iff`, `LsoStable.unstable`, `LsoStable.stable_fails`, `LsoStable.again_saved_iff`, `LsoStable.again_kept`.
* **C179** Saved curves can be loaded. False: curves without edges are refused, and a loop whose first vertex has an index that is not less than the number of vertices of the file is undefined behaviour (saved_loads_iff, for every curve with an edge). saved_loads_partial: curves that do not have more vertices than edges load.  Theorems: `PLineLoops.saved_loads_iff`, `PLineLoops.saved_loads_partial`, `PLineLoops.saved_loads_fails`.
* **C181** Different vertices stay different. False: the corners of a triangle with sides of three and four metres, with northing 6894770, become one point (far_triangle). Proved when any two vertices differ, in some coordinate, by more than one part in 199999 of the sum of the two.  Theorems: `Digits.stay_apart_partial`, `Digits.far_triangle`, `Digits.not_apart`.
* **C182** Values in .fem files keep their digits. False: std::to_string writes six digits after the point, and values below half a millionth, such as permeabilities in square metres, are written 0.000000 (small_values). Proved for values from a tenth on; every value is written within half a millionth (fem_values).  Theorems: `Digits.fem_values`, `Digits.digits_kept_partial`, `Digits.small_values`, `Digits.permeability`, `Digits.digits_not_kept`.
* **C184** Blanks at the ends of lines do not matter. False for VO files: a blank after the name of the data file is taken as part of the name, and the file is not found (voxet_blank). Proved for all other formats, and for VO files with carriage returns in the header file and any blanks in the data file.  Theorems: `LineEnds.gocad_line_ends`, `LineEnds.well_line_ends`, `LineEnds.ml_line_ends`, `LineEnds.lso_line_ends`, `LineEnds.grdecl_line_ends`, `LineEnds.voxet_line_ends`, `LineEnds.voxet_blank`, `LineEnds.recognised_line_ends`.
* **C185** Comment lines do not change what is loaded. False: a comment before the coordinate system makes elevations of depths, one before the property header loses the properties, one with "name:" in the header renames the object (comments_do_harm), and one in the path of a well cuts the well (well_cut), all without a report. Proved for comments without "name:" and quotes at all other places: not right after a title, the end of a header, the end of a coordinate system or a record of the path of a well.  Theorems: `Comments.mesh_comments_partial`, `Comments.well_comments_partial`, `Comments.voxet_comments_partial`, `Comments.comments_do_harm`, `Comments.comments_not_ignored`, `Comments.well_cut`.
* **C186** A file is loaded as one kind of object. False: the readers of stratigraphic columns of the plane and of the space have the same extension and the same priority (columns_not_decided). Proved for all other extensions. decided_iff: this is the only pair of readers that nothing decides between.  Theorems: `Priorities.decided_partial`, `Priorities.columns_not_decided`, `Priorities.readers_have_priorities`, `Priorities.images_are_surfaces`, `Priorities.stratigraphic_decided`, `PrioritiesExact.decided_iff`.
* **C187** Undefined values do not spoil FEM properties. False whenever a value is NaN (all_listed_iff): with two different numbers beside it the values are sorted with an order that is not one, which is undefined behaviour (nan_ub_iff); otherwise the elements of NaN are in no line (numbers_listed). Proved for values without NaN, for which the file is that of C33 (same_without_nan).  Theorems: `FemNan.all_listed_iff`, `FemNan.numbers_listed`, `FemNan.nan_ub_iff`, `FemNan.same_without_nan`, `FemNan.one_missing`.
* **C188** Models loaded from .lso files can be saved to .ml files. All surfaces of a .lso file are in horizons. False as soon as the library makes a model boundary of some of them (converted_iff): a surface in a model boundary and in a horizon is announced once, in the model boundary, and a horizon that is left without surface makes the file unreadable (boundary_refused). Proved when no model boundary is made.  Theorems: `LsoToMl.converted_partial`, `LsoToMl.converted_iff`, `LsoToMl.never_converted`, `LsoToMl.groups_loaded`, `LsoToMl.boundary_refused`, `LsoToMl.not_always_converted`, `LsoToMl.surfaces_sorted`.
* **C189** Shapefiles recognised are those something is loaded from. False: any file with a layer is recognised, also when no layer has a known type (recognised_empty) or when it is refused (recognised_refused). For files that load the exact condition is given (tells_partial).  Theorems: `ShpRecognise.tells_partial`, `ShpRecognise.something_iff`, `ShpRecognise.not_recognised`, `ShpRecognise.recognised_empty`, `ShpRecognise.recognised_refused`, `ShpRecognise.does_not_tell`.
* **C190** The order of the sections of a corner point grid does not matter. False: the depths are looked for from the end of the pillars on, and a file whose depths come first is refused (depths_first). Proved when a section of depths follows the first section of pillars: the dimensions may then be anywhere.  Theorems: `GrdeclOrder.order_partial`, `GrdeclOrder.load_pieces`, `GrdeclOrder.depths_first`, `GrdeclOrder.order_matters`.
* **C191** The depths of a corner point grid are read however they are written. False: notation_partial says, for every way to write the depths, which ones are read (numbers only, with the slash at the beginning of a line); all the others are refused, none is misread. It assumes that words with a star, a slash or two dashes in front are not numbers (Strict).  Theorems: `GrdeclOrder.notation_partial`, `GrdeclOrder.pillars_notation`, `GrdeclOrder.notation_fails`, `GrdeclOrder.strict_int`.
* **C192** Other sections do not change a corner point grid. False: a line that only starts with the letters of a keyword is taken for it, so that a COORDSYS section makes the file refused. Proved for lines that do not start with the letters of a keyword.  Theorems: `GrdeclOrder.others_partial`, `GrdeclOrder.longer_keyword_refused`, `GrdeclOrder.others_matter`.
* **C193** Blanks between words do not matter. False for the lines that start with GOCAD, with the name of the data file of a Voxet or with the title of a deviation survey, which are compared as text (title_matters: the reader then finds no object), and for blanks before a keyword that is looked for (indentation_matters). Proved for all other lines, with or without blanks before both; for corner point grids without included files.  Theorems: `Spacing.gocad_spacing_partial`, `Spacing.well_spacing_partial`, `Spacing.model_spacing_partial`, `Spacing.grdecl_spacing_partial`, `Spacing.voxet_spacing_partial`, `Spacing.title_matters`, `Spacing.indentation_matters`, `Spacing.data_file_matters`, `Spacing.not_onlyWords`.
* **C194** Vertices may have any numbers. False: only the number of the first vertex of a surface or curve is read, and none in a solid (solid_numbers_ignored). Exactly the vertices whose number is that of the first one plus their rank are right (surface_numbers_iff, curve_numbers_iff); a gap before a vertex in use is undefined behaviour (gap_always), and numbers in another order silently give other triangles (swapped_wrong). Proved for consecutive numbers.  Theorems: `GocadNumbers.surface_numbers_partial`, `GocadNumbers.curve_numbers_partial`, `GocadNumbers.surface_numbers_iff`, `GocadNumbers.curve_numbers_iff`, `GocadNumbers.gap_always`, `GocadNumbers.gap_undefined`, `GocadNumbers.swapped_wrong`, `GocadNumbers.solid_numbers_ignored`, `GocadNumbers.solid_swapped`, `GocadNumbers.not_anyNumbers`.
* **C195** Components of ML files may have any numbers. False: the numbers of the records are never read (component_numbers_ignored, for all files with a header as written by the library) and the numbers of lists are taken as ranks. Exactly the regions whose surfaces have their own ranks, or each the rank of the other, are right (region_numbers_iff); the others silently get other surfaces (swapped_wrong) or undefined behaviour. Proved for surfaces numbered by their ranks.  Theorems: `MlAnyNumbers.component_numbers_partial`, `MlAnyNumbers.region_numbers_iff`, `MlAnyNumbers.component_numbers_ignored`, `MlAnyNumbers.swapped_wrong`, `MlAnyNumbers.not_anyComponentNumbers`.
* **C196** The order of the records of an ML file is free. False: a layer or fault block only gets the regions of the records before it, and the others are left out without a report (layer_blind; layer_emptied is a test). Proved when layers and fault blocks come after all surfaces and regions. order_iff: a file with the records of a file that loads in another order always loads, as a model that can only differ by its layers and fault blocks. order_last_iff: when those of the first file come last, the models are the same exactly when each layer and fault block of the other file has, after the records before it, the blocks it has after all records.  Theorems: `MlOrder.order_partial`, `MlOrder.layers_last`, `MlOrder.layer_blind`, `MlOrder.layer_emptied`, `MlOrder.not_anyOrder`, `MlOrderExact.order_iff`, `MlOrderExact.order_last_iff`.
* **C197** The points that are one in an ML file do not depend on the unit. False: the size used is the smallest side of the bounding box, so that nothing is tolerated in a model flat along an axis (flat_exact) and a border written with other roundings by its two surfaces makes two lines (flat_new_line). close_iff says which points are one in all models; the answer does not depend on the unit, the origin or the order of the points (close_moved, close_same), nor do the lines and unique vertices (built_moved). Rational numbers stand for doubles.  Theorems: `MlTolerance.close_iff`, `MlTolerance.tolerant_partial`, `MlTolerance.never_far`, `MlTolerance.close_moved`, `MlTolerance.close_same`, `MlTolerance.close_symm`, `MlTolerance.close_refl`, `MlTolerance.built_moved`, `MlTolerance.flat_exact`, `MlTolerance.flat_new_line`, `MlTolerance.map_apart`, `MlTolerance.not_allTolerant`, `MlTolerance.not_transitive`.
* **C198** The hexahedra of corner point grids have eight distinct vertices. False: a cell that is pinched on one of its pillars is loaded as a hexahedron with a vertex several times (pinched). eight_iff: exactly the cells with eight distinct corners have eight vertices; with exact arithmetic and pillars that are not horizontal and do not meet, exactly the cells with different depths at the top and at the bottom of each pillar. The merging of points is a parameter as for C152.  Theorems: `GrdeclPinch.eight_iff`, `GrdeclPinch.eight_partial`, `GrdeclPinch.pinched`, `GrdeclPinch.not_allEight`.
* **C199** The inactive cells of corner point grids are left out. False: the section is ignored wherever it is, and every cell of the dimensions is loaded. Exactly true when all cells are active.  Theorems: `GrdeclPinch.all_cells`, `GrdeclPinch.inactive_ignored`, `GrdeclPinch.active_partial`, `GrdeclPinch.not_activeOnly`.
* **C200** Other lines between the records of ML files are ignored. False: a blank line, or one of a single word, makes the loading undefined wherever it is between the records (short_line), and one that starts with the letters END ends the records (early_end is a test). Proved for lines of two words that do not start with END, such as comments and the points of the key triangles. begins_written shows that the beginnings of all saved files are among those of the theorem.  Theorems: `MlOthers.others_partial`, `MlOthers.short_line`, `MlOthers.early_end`, `MlOthers.not_ignored`, `MlOthers.begins_written`.
* **C201** Models saved to LSO files can be loaded. False: exactly the saved models with a tetrahedron in which each collection that brings a surface has a name with a word are loaded (saved_loads_partial); the others have undefined behaviour, and a model without vertices is refused (saved_ub_iff). names_back: which names come back, also for names with several blanks, quotes or no word.  Theorems: `LsoLoads.saved_loads_partial`, `LsoLoads.saved_ub_iff`, `LsoLoads.empty_refused`, `LsoLoads.no_tetra_ub`, `LsoLoads.names_back`, `LsoLoads.named_iff`, `LsoLoads.not_always_loaded`.
* **C202** Models loaded from ML files can be saved to ML files. False: a file with a surface without triangles is loaded, and saving the model reads the first triangle of this surface. resaved_iff: this is the only obstacle, whatever the file: saving ends when all surfaces have triangles and is undefined otherwise; no exception is raised. loaded_sane: all numbers of a loaded model are those of something loaded. The sides of the boundary surfaces are those of determine_surface_to_regions_sides (C35, C36).  Theorems: `MlResaved.resaved_partial`, `MlResaved.resaved_iff`, `MlResaved.loaded_sane`, `MlResaved.resaved_fails`.
* **C203** Models loaded from LSO files can be saved to LSO files. False: a file with a vertex that no tetrahedron of a block has is loaded, and the writer looks for the first vertex of a block at its unique vertex, which does not exist. resaved_iff: whatever the file, the model is saved exactly when each unique vertex is at a block, each surface has a triangle and each block has a boundary surface, and saving it is undefined otherwise; no exception is raised. loaded_sane: all vertices and tetrahedra of a loaded model exist. The model boundaries and the sides are given to the writer (C35, C36).  Theorems: `LsoResaved.resaved_partial`, `LsoResaved.resaved_iff`, `LsoResaved.loaded_sane`, `LsoResaved.resaved_fails`.
* **C205** Wells saved as curves come back. False: a well of one point has no edge, and the file of its curve is refused. well_round_trip_iff: the wells of less than 2^32 points that come back are exactly those of two points or more, with their points in order, rounded as they are when written. The name of the well is replaced by the one the writer gives (see C04).  Theorems: `WellsSaved.well_round_trip_partial`, `WellsSaved.well_round_trip_iff`, `WellsSaved.well_round_trip_fails`, `WellsSaved.run_round_trip`.
* **C206** Surfaces and point sets that are loaded come back from the files they are saved in. False: a quote between two blanks of a name is removed when it is read, and the two blanks left become one when the surface is saved and loaded; a file without objects is loaded as the empty point set, whose file is refused. surface_back_iff, set_back_iff: with less than 2^32 points, the surfaces that come back are exactly those whose name has its words separated by single blanks, and the point sets are exactly those that moreover have a point. surface_back_partial: in all cases the points and triangles of a surface come back.  Theorems: `MeshResaved.surface_back_partial`, `MeshResaved.surface_back_iff`, `MeshResaved.set_back_iff`, `MeshResaved.surface_sane`, `MeshResaved.surface_name_lost`, `MeshResaved.empty_set_lost`.

## 5. Each property: what is modelled, where it is proved

| property | source | status | theorems |
|---|---|---|---|
| C01 TSurf save/load preserves the geometry | gocad_common.cpp, ts_input.cpp, ts_output.cpp | proved | `TSurf.roundtrip_geometry`, `TSurf.load_save`, `TSurf.loadTS_terminates` |
| C02 TSurf save/load preserves scalar vertex properties | gocad_common.cpp, ts_output.cpp | proved | `TSurf.roundtrip_properties`, `TSurf.load_save` |
| C03 VSet save/load preserves points and properties | vs_input.cpp, vs_output.cpp | partial | `VSet.roundtrip_partial`, `VSet.empty_throws`, `VSet.empty_not_kept`, `VSet.empty_steals`, `VSet.loadVS_terminates`, `ExactSmall.kept_iff` |
| C04 PLine save/load preserves the curve | pl_input.cpp, pl_output.cpp | partial | `PLine.round_trip_partial`, `PLine.loop_not_preserved`, `PLine.loop_after_isolated_vertices`, `PLine.no_edge_not_reloaded`, `PLineLoops.round_trip_iff`, `PLineLoops.one_loop_iff` |
| C05 PLine writer emits every edge exactly once and terminates | pl_output.cpp | proved | `PLine.save_one_seg_per_edge`, `PLine.save_each_edge_once` |
| C06 A file holding several TSurf objects loads as their disjoint union | gocad_common.cpp, ts_input.cpp | proved | `TSurf.union_of_objects` |
| C07 Properties of several objects in one file stay attached to their own vertices | gocad_common.cpp, ts_input.cpp, vs_input.cpp | partial | `TSurf.properties_overwritten`, `TSurf.properties_kept_partial`, `TSurf.clash_loaded`, `VSet.properties_overwritten`, `GocadVectors.other_vertices`, `GocadVectors.other_object_loses`, `ManyProps.properties_kept_iff`, `ManyProps.loaded_values`, `ManyProps.last_object_first`, `ManySets.properties_kept_iff`, `ManySets.loaded_values` |
| C08 Numbering base independence | gocad_common.cpp | proved | `GocadBody.base_independent`, `GocadBody.base_independent_pl`, `GocadBody.load_file`, `GocadBody.load_filePL`, `GocadBody.base_matters_before_first_vertex` |
| C09 Depth/elevation convention | gocad_common.cpp | proved | `GocadBody.depth_ts`, `GocadBody.depth_pl`, `GocadBody.depth_vs`, `Digits.depth` |
| C10 Property names containing blanks survive the header | gocad_common.cpp | proved | `GocadText.names_survive`, `GocadText.quote_lost` |
| C11 Property header round trip | gocad_common.cpp | proved | `GocadText.header_roundtrip` |
| C12 Truncated GOCAD objects are reported | gocad_common.cpp | partial | `GocadTruncated.truncated_ts`, `GocadTruncated.truncated_vs`, `GocadTruncated.truncated_pl_not_reported`, `GocadTruncated.truncated_pl_accepted`, `GocadTruncated.truncated_pl_silent`, `GocadTruncated.truncated_pl_partial`, `GocadTruncated.midline_cut_is_ub` |
| C13 A missing closing quote is reported | gocad_common.cpp | partial | `GocadText.unclosed_not_reported`, `GocadText.unclosed_is_ub`, `GocadText.closed_ok_partial`, `GocadText.cover`, `QuotesExact.unclosed_iff`, `QuotesExact.split_iff`, `QuotesExact.never_reported` |
| C14 Missing property values are reported, extra tokens are ignored | gocad_common.cpp | proved | `GocadText.values_read`, `GocadText.extra_ignored`, `GocadText.missing_reported`, `GocadText.short_vertex_line_throws`, `ColumnsSorted.no_column` |
| C15 ATOM records duplicate an existing vertex | gocad_common.cpp | proved | `GocadBody.atom_copies`, `GocadBody.atom_forward_throws` |
| C16 No undefined behaviour on arbitrary GOCAD text | gocad_common.cpp | partial | `GocadUb.ub_reachable`, `GocadUb.blank_line_ts`, `GocadUb.blank_line_vs`, `GocadUb.blank_line_pl`, `GocadUb.dangling_triangle`, `GocadUb.no_ub_ts_partial`, `GocadUb.no_ub_vs_partial`, `GocadUb.no_ub_pl_partial`, `GocadRefused.surface_ub_iff`, `GocadRefused.points_ub_iff`, `GocadRefused.curve_ub_iff` |
| C17 Object names survive save/load | gocad_common.cpp | proved | `GocadText.object_name`, `GocadText.object_name_collapsed`, `GocadText.object_name_double_blank` |
| C18 Point-list wells load as a polyline | well_input.hpp | partial | `Wells.list_loaded_partial`, `Wells.list_refused`, `Wells.list_wrong_count`, `Wells.list_cover`, `Wells.list_empty`, `ExactSmall.list_outcomes` |
| C19 Petrel deviation surveys: columns go to the right attribute | well_dev_input.cpp | partial | `Wells.dev_loaded_partial`, `Wells.dev_attribute_partial`, `Wells.dev_wrong_row`, `Wells.dev_no_rows`, `Wells.dev_missing_title`, `Wells.dev_no_titles` |
| C20 GOCAD wells: every path record becomes a vertex | wl_input.cpp | partial | `Wells.wl_loaded`, `Wells.wl_all_records_partial`, `Wells.wl_first_record_lost`, `Wells.wl_interrupted`, `ExactOrigins.wl_records_iff`, `ExactOrigins.wl_never_all` |
| C21 Voxet cell data reach the right cell | vo_input.cpp | partial | `Voxet.cell_value_partial`, `Voxet.wrong_count`, `Voxet.cell_outside` |
| C22 Voxet data file is looked for where it is read | vo_input.cpp | partial | `Voxet.announced_without_folder`, `Voxet.announced_with_cr`, `Voxet.announced_partial`, `ExactOrigins.announced_iff` |
| C23 GRDECL: each depth value is used by exactly one cell corner | grdecl_input.cpp | proved | `GrdeclCells.depths_used_once`, `GrdeclCells.cornerIds_eq` |
| C24 GRDECL: corners lie on shared pillars | grdecl_input.cpp | partial | `GrdeclCells.corner_points`, `GrdeclCells.hexahedra`, `GrdeclCells.pillars_shared`, `GrdeclCells.pillars_distinct`, `GrdeclCells.interpolate_on_line_partial`, `GrdeclCells.horizontal_pillar` |
| C25 GRDECL loader terminates on truncated input | grdecl_input.cpp | partial | `GrdeclText.missing_dimensions`, `GrdeclText.missing_end_of_pillars`, `GrdeclText.missing_end_of_depths`, `GrdeclText.missing_section_partial`, `GrdeclRefused.grid_diverge_iff` |
| C26 GRDECL loader accepts exactly the announced number of values | grdecl_input.cpp | partial | `GrdeclText.load_parts`, `GrdeclText.exact_counts`, `GrdeclText.too_many`, `GrdeclText.too_few_pillars`, `GrdeclText.too_few_depths`, `ExactFiles.counts_iff` |
| C27 GRDECL pillar layout does not matter | grdecl_input.cpp | proved | `GrdeclText.layout_irrelevant`, `GrdeclText.layout_irrelevant_included` |
| C28 DEM: one vertex per valid pixel, one quad per square of valid pixels | dem_input.cpp | proved | `Dem.dem_loaded`, `Dem.vertex_of_pixel` |
| C29 DEM polygons are simple | dem_input.cpp | partial | `Dem.never_contour`, `Dem.row_neighbours_apart`, `Dem.column_neighbours_partial` |
| C30 FEM range lists denote exactly the given indices | fem_output.cpp | proved | `FemRanges.ranges_decoded` |
| C31 FEM range lines keep within the line limit | fem_output.cpp | proved | `FemRanges.lines_short`, `FemRanges.file_lines_short`, `FemRanges.lines_not_empty`, `FemRanges.ranges_decoded` |
| C32 FEM nodal properties list all nodes with a non-default value | fem_output.cpp | partial | `FemValues.last_node_missing`, `FemValues.nodes_out_of_bounds`, `FemValues.nodes_listed_partial`, `ExactMore.nodes_listed_iff` |
| C33 FEM element properties group the elements by value | fem_output.cpp | proved | `FemValues.elements_listed` |
| C34 FEM discrete features are numbered consistently | fem_output.cpp | proved | `FemFeatures.buildFeatures_ok`, `FemFeatures.features_numbered`, `FemFeatures.incidence_lines`, `FemFeatures.signature_lines`, `FemFeatures.group_ranges`, `FemFeatures.materials_ok`, `FemFeatures.no_feature_throws` |
| C35 Relative orientations are consistent | gocad_common.cpp | partial | `Sides.signs_agree_partial`, `Sides.first_positive`, `Sides.signs_iff_joined`, `Sides.pinched`, `Sides.no_surface` |
| C36 Universe and block sides are opposite | gocad_common.cpp | partial | `Sides.universe_opposite_partial`, `Sides.universe_inward`, `Sides.regions_outward`, `Sides.pinched_not_opposite`, `Sides.no_boundary`, `Sides.null_volume` |
| C37 ML component numbers refer to the right component | ml_output_impl.hpp | proved | `MlNumbers.component_numbers`, `MlNumbers.face_numbers` |
| C38 ML regions: boundary and internal surfaces survive save/load | ml_input.cpp, ml_output_impl.hpp | partial | `MlBlocks.surfaces_kept`, `MlBlocks.kept_iff`, `MlBlocks.blocks_back`, `MlRoundTrip.round_trip`, `MlCases.full_good`, `MlCases.short_region` |
| C39 ML layers and fault blocks survive save/load | ml_input.cpp, ml_output_structural_model.cpp | proved | `MlRoundTrip.round_trip`, `MlCases.layer_numbers`, `MlCases.fault_block_numbers` |
| C40 ML vertex numbers are global over the surfaces of a TSurf | ml_output_impl.hpp | proved | `MlRoundTrip.face_text`, `MlRoundTrip.faces_kept` |
| C41 ML loader terminates on truncated region lists | ml_input.cpp | partial | `MlCases.unclosed_not_reported`, `MlCases.unclosed_load_diverges`, `MlCases.end_of_file`, `MlCases.cut_reported_partial`, `MlCases.list_meets_end`, `MlRefused.ml_diverge_iff` |
| C42 A block bounded by a single surface survives ML save/load | ml_input.cpp | partial | `MlLoads.one_surface_refused`, `MlCases.single_surface_block`, `MlCases.short_region`, `MlRoundTrip.round_trip` |
| C43 LSO vertex numbering | lso_output.cpp | proved | `LsoNumbers.numbers`, `LsoNumbers.tetra_lines` |
| C44 LSO tetrahedra survive save/load | lso_input.cpp, lso_output.cpp | proved | `LsoRoundTrip.blocks_by_word`, `LsoRoundTrip.tetrahedra_kept` |
| C45 LSO block names with blanks do not mix blocks | lso_input.cpp, lso_output.cpp | partial | `LsoCases.same_word_mixes`, `LsoCases.names_mixed`, `LsoCases.own_word_partial`, `LsoWords.kept_iff`, `LsoWords.all_kept_iff` |
| C46 Loaded LSO per-tetrahedron properties stay on their tetrahedra | lso_input.cpp | partial | `LsoCases.tetra_property_fails`, `LsoCases.tetra_property_ub`, `LsoCases.tetra_values_partial`, `ExactLast.tetra_values_iff` |
| C47 GEOS region attribute identifies the region of each cell | geos_export.cpp, structural_model_geos_export.cpp | partial | `Geos.brep_regions`, `Geos.unit_regions_partial`, `Geos.outside_units_ub`, `ExactMore.unit_regions_iff` |
| C48 SHP polylines | shp_input.cpp | partial | `Shp.open_part`, `Shp.closed_part`, `Shp.part_segments`, `Shp.line_layer`, `Shp.single_point_ub`, `ExactSmall.part_iff` |
| C49 SHP point layers give one corner vertex per point | shp_input.cpp | partial | `Shp.corner_points`, `Shp.other_points_loose`, `Shp.single_points_partial`, `Shp.unique_vertices`, `ExactMore.all_unique_iff` |
| C50 SKUA stacks: units, horizons and contacts | horizons_stack_skua_input.cpp | partial | `Skua.stack_says`, `SkuaColumns.column_loads`, `Skua.text_ignored`, `Skua.strip_blanks`, `Skua.contacts_partial`, `Skua.two_tops_discontinuity`, `Skua.eroded_twice` |
| C51 BRep FEM export paints apertures of every surface and line | brep_fem_output.cpp | partial | `BrepFem.own_painted_partial`, `BrepFem.own_not_painted`, `BrepFem.second_not_painted`, `ExactExports.own_exported_iff` |
| C52 Several VSet objects in one file | gocad_common.cpp, vs_input.cpp | proved | `VSet.union_of_objects` |
| C53 Surfaces from images have the elevations of the file | polytiff_input.cpp | partial | `Dem.poly_uninitialised` |
| C54 FEM sections announce the number of properties they hold | fem_output.cpp | partial | `FemValues.nodal_count`, `FemValues.element_blocks`, `FemValues.element_count_wrong`, `FemValues.element_count_partial` |
| C55 FEM sets list the members of each block | fem_output.cpp | partial | `FemValues.nodal_sets`, `FemValues.element_sets_ub`, `ExactSmall.element_sets_iff` |
| C56 FEM files hold the mesh | fem_output.cpp | proved | `FemFeatures.elements_written`, `FemFeatures.nodes_written` |
| C57 FEM material sections list the features of each value | fem_output.cpp | partial | `FemFeatures.material_lines_partial`, `FemFeatures.material_glued`, `FemFeatures.material_lines_glued`, `FemMaterial.material_words`, `FemMaterial.material_read_iff` |
| C58 ML collections of surfaces survive save/load | ml_input.cpp, ml_output_impl.hpp | partial | `MlMeshes.meshes_kept_iff`, `MlMeshes.meshes_kept`, `MlMeshes.meshes_back`, `MlCollections.sizes_kept_iff`, `MlCollections.collections_back`, `MlRoundTrip.round_trip`, `MlCases.shared_surface`, `MlCases.collections_not_kept` |
| C59 ML fault types and horizon contacts survive save/load | ml_input.cpp, ml_output_structural_model.cpp | partial | `MlCollections.types_kept_iff`, `MlCollections.faults_back`, `MlCollections.horizons_back`, `MlRoundTrip.round_trip`, `MlCases.fault_types_not_kept`, `MlCases.erosion_unsaveable` |
| C60 Every saved ML file can be loaded | ml_input.cpp, ml_output_impl.hpp | partial | `MlLoads.saved_loads_iff`, `MlRoundTrip.round_trip`, `MlGroups.own_surface`, `MlCases.single_surface_block`, `MlCases.empty_boundary_throws`, `MlCases.merged_names_throw` |
| C61 ML keeps all the blocks | ml_input.cpp, ml_output_impl.hpp | partial | `MlNames.names_back`, `MlNames.blocks_kept_iff`, `MlNames.universe_lost`, `MlRoundTrip.round_trip`, `MlCases.universe_block_lost` |
| C62 ML adds no collection | ml_input.cpp, ml_output_impl.hpp | partial | `MlCollections.boundaries_added`, `MlCollections.boundaries_back`, `MlRoundTrip.round_trip`, `MlCases.loose_surfaces_collected` |
| C63 LSO surfaces survive save/load | lso_input.cpp, lso_output.cpp | proved | `LsoRoundTrip.surfaces_kept`, `LsoRoundTrip.kept_surfaces`, `LsoRoundTrip.groups_disjoint` |
| C64 LSO keeps the kind of each collection | lso_input.cpp, lso_output.cpp | partial | `LsoRoundTrip.collections_become_horizons`, `LsoCases.fault_becomes_horizon`, `ExactExports.horizons_kept_iff` |
| C65 LSO relations between blocks and surfaces | lso_input.cpp | proved | `LsoRelations.relations` |
| C66 Models that .lso cannot hold are refused with an exception | lso_output.cpp | partial | `LsoNumbers.saved_vertices`, `LsoNumbers.loose_surface_ub`, `LsoCases.saved_boundaries`, `LsoCases.no_boundary_ub`, `LsoCases.uncollected_throws`, `LsoSaving.outcomes` |
| C67 LSO files that follow the format load | lso_input.cpp | partial | `LsoCases.shared_number_ub`, `LsoCases.no_tetra_ub`, `Verif.Lso.load_save`, `LsoRefused.lso_ub_iff` |
| C68 SHP polygons | shp_input.cpp | partial | `Shp.closed_ring`, `Shp.large_ring`, `Shp.rings_are_polygons`, `Shp.open_ring_loses`, `Shp.hole_filled`, `ExactFiles.ring_iff` |
| C69 SHP layers are never dropped silently | shp_input.cpp | partial | `Shp.components`, `Shp.unknown_layer_skipped`, `Shp.missing_geometry_throws`, `ExactRest.layers_kept_iff` |
| C70 SHP lines and surfaces have their own unique vertices | shp_input.cpp | proved | `Shp.unique_vertices` |
| C71 SKUA columns are recognised however they are written | horizons_stack_skua_input.cpp | partial | `Skua.recognised`, `Skua.not_recognised`, `ExactExports.recognised_iff` |
| C72 SKUA files without a readable column are refused | horizons_stack_skua_input.cpp | proved | `Skua.read_words`, `Skua.loads_iff`, `Skua.refused`, `Skua.no_column_throws` |
| C73 GEOS cell properties | geos_export.cpp | partial | `Geos.properties_transferred`, `Geos.requested`, `Geos.export_ok`, `Geos.wrong_dimension_ub`, `Geos.region_name_throws`, `GeosExact.transfer_iff` |
| C74 GEOS list of fields | geos_export.cpp | partial | `Geos.fields_text`, `Geos.fields_decoded`, `Geos.comma_splits`, `ExactExports.fields_decoded_iff` |
| C75 GEOS well boxes | geos_export.cpp | partial | `Geos.perforations_in_box_partial`, `Geos.nearest_selected`, `Geos.outside_well_empty`, `ExactSmall.box_iff` |
| C76 BRep FEM export paints conductivities of every surface and line | brep_fem_output.cpp | proved | `BrepFem.conductivity_painted` |
| C77 BRep FEM export names the facets and edges of named surfaces and lines | brep_fem_output.cpp | partial | `BrepFem.names_painted_partial`, `BrepFem.name_lost`, `ExactExports.name_carried_iff` |
| C78 BRep FEM export names the tetrahedra | brep_fem_output.cpp | proved | `BrepFem.cells_named` |
| C79 BRep FEM export lists the blocks of each vertex once | brep_fem_output.cpp | partial | `BrepFem.vertices_labelled`, `BrepFem.block_listed_twice`, `BrepFem.block_listed_once_partial`, `ExactExports.listed_once_iff` |
| C80 BRep FEM export copies the attributes of the blocks | brep_fem_output.cpp | partial | `BrepFem.attributes_copied`, `BrepFem.value_copied`, `BrepFem.foreign_value`, `BrepFem.foreign_witness`, `BrepFem.empty_block_ub` |
| C81 Saved files are recognised | lso_input.cpp, ml_input.cpp, pl_input.cpp, ts_input.cpp, vs_input.cpp | proved | `Recognise.saved_ts_recognised`, `Recognise.saved_vs_recognised`, `Recognise.saved_pl_recognised`, `Recognise.saved_ml_recognised`, `Recognise.saved_lso_recognised`, `Recognise.hasKeyword_iff` |
| C82 Files that are not recognised are refused | grdecl_input.cpp, lso_input.cpp, ml_input.cpp, pl_input.cpp, ts_input.cpp, vo_input.cpp, vs_input.cpp, well_dev_input.cpp, wl_input.cpp | partial | `Recognise.wl_refused`, `Recognise.dev_refused`, `Recognise.voxet_refused`, `Recognise.grdecl_refused`, `Recognise.ml_refused`, `Recognise.lso_refused`, `Recognise.ts_empty`, `Recognise.vs_empty`, `Recognise.pl_empty`, `Recognise.meshes_not_refused`, `Recognise.points_recognised` |
| C83 Recognised deviation surveys are read wherever their title is | well_dev_input.cpp | partial | `Recognise.dev_title_first`, `Recognise.dev_recognised_refused`, `DevTitle.refused_for_place_iff`, `DevTitle.place_partial`, `DevTitle.not_place_free`, `DevTitle.titled`, `DevTitle.untitled`, `DevTitle.short_title` |
| C84 LSO vertex properties stay on their vertices | gocad_common.cpp, lso_input.cpp | proved | `StratiLso.vertex_properties` |
| C85 Stratigraphic coordinates come from the line of each vertex | strati_lso_input.cpp | proved | `StratiLso.stratigraphic_coordinates` |
| C86 LSO files without stratigraphic coordinates are refused | strati_lso_input.cpp | partial | `StratiLso.missing_property_throws`, `StratiLso.other_size_ub`, `StratiExact.refused_iff`, `StratiExact.loaded_iff` |
| C87 LSO files recognised as stratigraphic can be loaded | strati_lso_input.cpp | partial | `StratiLso.recognised_mentions`, `StratiLso.recognised_refused`, `StratiExact.loaded_iff` |
| C88 Building the lines of LSO models ends | lso_input.cpp | proved | `LsoLines.lines_end`, `LsoLines.line_endless_iff` |
| C89 LSO lines run from corner to corner along the borders | lso_input.cpp | proved | `LsoLines.lines_corner_to_corner` |
| C90 Borders of LSO surfaces are covered by lines | lso_input.cpp | partial | `LsoLines.corner_edges_covered`, `LsoLines.borders_covered_partial`, `LsoLines.loop_without_corner`, `LsoLines.alone_not_covered`, `LsoCovered.covered_iff`, `LsoCovered.all_covered_iff` |
| C91 LSO lines do not share edges | lso_input.cpp | partial | `LsoLines.lines_disjoint_partial`, `LsoLines.shared_edge`, `LsoLines.lines_not_disjoint` |
| C92 LSO lines are boundaries of the surfaces their borders pass along | lso_input.cpp | proved | `LsoLines.line_relations` |
| C93 LSO lines with the surface on both sides are internal | lso_input.cpp | partial | `LsoLines.two_sides_internal_partial`, `LsoLines.slit_end`, `LsoLines.two_sides_not_internal` |
| C94 LSO corners stand where the surfaces change | lso_input.cpp | partial | `LsoLines.corners_where_surfaces_change_partial`, `LsoLines.corners_one_sided` |
| C95 LSO corners stand only where the surfaces change | lso_input.cpp | proved | `LsoLines.corner_reason`, `LsoLines.corners_nodup`, `LsoLines.buildCorners_mem` |
| C96 Lines that lie on an LSO surface are related to it | lso_input.cpp | proved | `LsoLines.lines_on_surface_related`, `LsoLines.split_adds_only` |
| C97 ML line starts cover the borders | ml_output_impl.hpp | partial | `MlLines.starts_first_loop`, `MlLines.starts_complete_partial`, `MlLines.hole_corner_lost`, `MlLines.starts_diverge_iff` |
| C98 ML lines run along the border to the next corner | ml_input.cpp | proved | `MlLines.compute_line`, `MlLines.compute_line_ub` |
| C99 The border of a surface survives ML save and load | ml_input.cpp, ml_output_impl.hpp | proved | `MlLines.border_round_trip` |
| C100 A line shared by ML surfaces is made once | ml_input.cpp | proved | `MlLines.lines_once` |
| C101 Surface vertices are tied to the line vertices at their place | ml_input.cpp | proved | `MlLines.pieces_on_lines` |
| C102 ML lines are boundaries or internal to surfaces as often as met | ml_input.cpp | partial | `MlLines.relations_right_partial`, `MlLines.single_line_unrelated`, `MlExactLines.relations_right_iff` |
| C103 Every vertex of an ML surface has a unique vertex | ml_input.cpp | proved | `MlLines.vertices_attached`, `MlLines.missing_fails_iff` |
| C104 Lines inside ML surfaces become internal | ml_input.cpp | partial | `MlLines.internals_lie`, `MlLines.single_line_internal` |
| C105 Sections of included GRDECL files are read | grdecl_input.cpp | partial | `GrdeclIncludes.included`, `GrdeclIncludes.included_sections_partial`, `GrdeclIncludes.missing_file`, `GrdeclIncludes.plain_name_ignored`, `GrdeclIncludes.blank_name_cut` |
| C106 GOCAD properties with several components are read in order | gocad_common.cpp | proved | `GocadVectors.tsurf_object`, `GocadVectors.vset_object`, `GocadVectors.tsurf_values`, `GocadVectors.vset_values` |
| C107 FEM coordinates list every node under its coordinate | fem_output.cpp | proved | `FemFile.coordinates_listed`, `FemFile.coordinates_sorted` |
| C108 FEM discrete features are well-formed XML with right counts | fem_output.cpp | proved | `FemFile.dfe_xml` |
| C109 FEM files hold each section once and in order | fem_output.cpp | partial | `FemFile.sections_in_order_partial`, `FemFile.attribute_named_end`, `FemFile.dimensions_announced`, `FemSections.sections_in_order_iff`, `FemSections.all_keys` |
| C110 A corner point grid has the dimensions of its SPECGRID section | grdecl_input.cpp | partial | `GrdeclDims.dimensions_partial`, `GrdeclDims.dimensions_from`, `GrdeclDims.comment_refused`, `GrdeclDims.other_type`, `GrdeclDims.never_ub`, `GrdeclDims.dimensions_not_read`, `ExactFiles.dimensions_iff` |
| C111 LSO shared vertices are the vertices they refer to | lso_input.cpp | partial | `LsoFile.shared_read_partial`, `LsoFile.beyond_uniques_ub`, `LsoFile.mixed_ub`, `LsoFile.mixed_wrong`, `LsoFile.shared_not_read`, `LsoShared.shared_right_iff`, `LsoShared.shared_ub_iff` |
| C112 LSO regions give one block each | lso_input.cpp | partial | `LsoFile.regions_read_partial`, `LsoFile.regions_up_to`, `LsoFile.regions_not_read`, `LsoFile.nameless_ub`, `ExactMore.regions_read_iff` |
| C113 LSO lines between the solid and its model are ignored | lso_input.cpp | proved | `LsoFile.skipped`, `LsoFile.no_model` |
| C114 GOCAD files describe each property class they announce | gocad_common.cpp, ts_output.cpp | partial | `GocadClasses.classes_described_partial`, `GocadClasses.header_columns`, `GocadClasses.no_header`, `GocadClasses.two_words`, `GocadClasses.classes_not_described`, `GocadClasses.coordinate_name`, `ClassesExact.described`, `ClassesExact.described_iff` |
| C115 ML lists have five numbers on each line | ml_output_impl.hpp, ml_output_structural_model.cpp | proved | `MlFile.universe_listed`, `MlFile.region_listed`, `MlFile.layer_listed` |
| C116 ML lines with missing words are reported | ml_input.cpp | partial | `MlFile.missing_words`, `MlFile.missing_words_partial`, `MlFile.missing_not_reported`, `MlFile.unknown_tsurf` |
| C117 ML corners and line starts are kept by save and load | gocad_common.hpp, ml_input.cpp, ml_output_impl.hpp | proved | `MlCorners.model_starts_kept`, `MlCorners.starts_kept` |
| C118 ML corners lie on their surfaces | gocad_common.hpp, ml_input.cpp | proved | `MlCorners.corners_placed`, `MlCorners.corners_shared`, `MlCorners.corners_only`, `MlCorners.face_found`, `MlCorners.faces_distinct` |
| C119 ML corner and line start records are checked | ml_input.cpp | partial | `MlCorners.stone_on_surface`, `MlCorners.start_on_surface`, `MlCorners.records_not_checked`, `MlCorners.stone_not_reported`, `MlCorners.border_not_reported`, `MlCorners.other_face_not_reported`, `ExactLast.Starts.start_checked_iff` |
| C120 Every reader and writer is used for the files of its extensions | common.cpp, strati_lso_input.hpp | partial | `Registry.formats_iff`, `Registry.reachable_partial`, `Registry.not_all_reachable`, `Registry.stratigraphic_never`, `Registry.entry_once`, `Registry.nothing_ignored`, `Registry.found_fits` |
| C121 Formats written can be read as the same kind of object | common.cpp | partial | `Registry.read_back_partial`, `Registry.not_all_read_back`, `Registry.never_read_back` |
| C122 Loading an image leaves the log level unchanged | geotiff_input.cpp, polytiff_input.cpp | partial | `Images.geo_level`, `Images.poly_level`, `Images.geo_level_partial`, `Images.geo_level_lost`, `Images.poly_level_lost`, `Images.level_stays_lost` |
| C123 Image files recognised are loaded | dem_input.cpp, geotiff_input.cpp, polytiff_input.cpp | partial | `Images.dem_recognised`, `Images.dem_refused`, `Images.geo_recognised`, `Images.poly_recognised_ub`, `Images.poly_refused`, `Images.poly_outcomes`, `Images.geo_outcomes`, `Images.percents` |
| C124 Names taken from paths are those of the files | grdecl_input.cpp, shp_input.cpp, vo_input.cpp, well_input.hpp | partial | `Paths.well_named`, `Paths.companion_named`, `Paths.data_beside`, `Paths.path_whole`, `Paths.absolute_partial`, `Paths.absolute_moved`, `ExactRest.data_named_iff` |
| C125 FEM saving creates the directories of its file | brep_fem_output.cpp, fem_output.cpp | partial | `Paths.directories_partial`, `Paths.directories_not_created`, `Paths.created_opens`, `Paths.created_exactly` |
| C126 GEOS export files are distinct, named and placed as the document says | geos_export.cpp | partial | `GeosFiles.files_distinct`, `GeosFiles.files_in_directory`, `GeosFiles.mesh_file_named`, `GeosFiles.boxes_named`, `GeosFiles.prefix_partial`, `GeosFiles.files_named_partial`, `GeosFiles.prefix_cut` |
| C127 GEOS boxes as written hold the perforations of their well | geos_export.cpp | partial | `GeosFiles.box_read`, `GeosFiles.written_box_partial`, `GeosFiles.written_box_misses`, `Digits.small_box_partial`, `Digits.box_misses` |
| C128 LSO models reported as saveable are saved | lso_output.cpp | partial | `Saveable.lso_saved_iff`, `Saveable.lso_saveable_partial`, `Saveable.lso_saveable_not_saved`, `Saveable.lso_reported_iff`, `LsoSaving.outcomes` |
| C129 ML models reported as saveable are saved | ml_output_brep.cpp, ml_output_impl.hpp, ml_output_structural_model.cpp | partial | `Saveable.ml_saved_iff`, `Saveable.ml_saveable_partial`, `Saveable.ml_saveable_not_saved`, `Saveable.ml_polygons`, `MlSaving.outcomes` |
| C130 Truncated LSO files are reported | lso_input.cpp | partial | `LsoCut.cut_reported_partial`, `LsoCut.cut_loads`, `LsoCut.cut_not_reported`, `LsoCut.cut_ends`, `ExactRest.cut_loaded_iff` |
| C131 Reading an LSO file ends | lso_input.cpp | partial | `LsoCut.ends_partial`, `LsoCut.cut_unfinished`, `LsoCut.whole_unfinished`, `LsoCut.not_ends`, `LsoCut.cut_ends_unfinished`, `ExactFiles.endless_iff` |
| C132 The last line feed of GRDECL and Voxet data files does not matter | grdecl_input.cpp, vo_input.cpp | partial | `GrdeclUnfinished.feed_irrelevant_partial`, `GrdeclUnfinished.feed_relevant`, `GrdeclUnfinished.pillars_cut`, `GrdeclUnfinished.pillarsEnd_throw`, `GrdeclUnfinished.depths_cut`, `GrdeclUnfinished.load_true`, `GrdeclUnfinished.readData_feed`, `GrdeclUnfinished.one_line`, `DataFeed.data_feed_iff` |
| C133 Vertices and borders of ML surfaces have consecutive numbers | ml_output_impl.hpp | proved | `MlAtoms.objects_numbered`, `MlAtoms.vertices_numbered`, `MlAtoms.named_exist` |
| C134 Reading GOCAD objects ends | gocad_common.cpp, pl_input.cpp, ts_input.cpp, vs_input.cpp | proved | `TSurf.loadTS_terminates`, `GocadEnds.loadPL_terminates`, `VSet.loadVS_terminates` |
| C135 Vertices of a loaded ML model share a unique vertex only at one place | ml_input.cpp | proved | `MlUniques.vertices_placed`, `MlUniques.own_vertices`, `MlUniques.lines_numbered` |
| C136 Corners of a loaded ML model end lines | ml_input.cpp | proved | `MlUniques.corners_end_lines`, `MlUniques.lone_corner`, `MlUniques.search_points` |
| C137 The vertices along all the lines of an ML surface are tied to the lines | ml_input.cpp | partial | `MlUniques.pieces_tied_partial`, `MlUniques.pieces_not_tied`, `MlExactLines.pieces_tied_iff`, `ColumnsSorted.pieces_sorted`, `ColumnsSorted.pieces_together` |
| C138 When a loaded .lso model has to be inspected | lso_input.cpp | proved | `LsoInspect.inspected`, `LsoInspect.blocks_read`, `LsoInspect.conformal_not_inspected` |
| C139 Meshes are saved in FEFLOW files | fem_output.cpp | partial | `BrepFemFile.mesh_saved_iff`, `BrepFemFile.mesh_ub`, `BrepFemFile.mesh_throws` |
| C140 Boundary representations reported as saveable are saved in FEFLOW files | brep_fem_output.cpp, fem_output.cpp | partial | `BrepFemFile.every_model_ub`, `BrepFemFile.saveable_iff`, `BrepFemFile.saveable_not_saved`, `BrepFemFile.model_saved_partial`, `BrepFemFile.model_saved_iff` |
| C141 What is loaded depends on the listed files only | grdecl_input.cpp, vo_input.cpp | partial | `Additional.grdecl_unlisted`, `Additional.grdecl_listed_partial`, `Additional.grdecl_depends`, `Additional.vo_unlisted`, `Additional.vo_listed_partial`, `Additional.vo_depends` |
| C142 Cut .ml files give the same model or none | gocad_common.cpp, ml_input.cpp | proved | `MlCut.cut_file`, `MlCut.cut_same`, `MlCut.saved_cut`, `MlCut.missing_mesh`, `MlCorners.missing_data` |
| C143 LSO models have to be inspected exactly when they do not conform | lso_input.cpp | proved | `LsoWhole.whole_inspected`, `LsoWhole.added_lines`, `LsoWhole.loaded_or_reported`, `LsoWhole.surfaces_known`, `LsoWhole.fin_inspected`, `LsoWhole.finSplit_not_inspected`, `LsoWhole.finOne_reported` |
| C144 Vertices of models read from ML files are joined by corners and lines only | ml_input.cpp | proved | `MlWhole.whole_vertices`, `MlWhole.whole_merged`, `MlWhole.whole_corners`, `MlWhole.shared_edge` |
| C145 Borders of surfaces saved in ML files are on lines once loaded | ml_input.cpp, ml_output_impl.hpp | partial | `MlWhole.models_loaded`, `MlWhole.borders_kept`, `MlWhole.one_corner_refused` |
| C146 Region indicators of LSO files do not change the model | lso_input.cpp | proved | `LsoIndicators.sections_skipped` |
| C147 Names of GOCAD objects come from the line with the key name | gocad_common.cpp | partial | `GocadHeaders.header_read`, `GocadHeaders.header_refused`, `GocadHeaders.key_names_fail`, `GocadHeaders.key_names_partial`, `ExactLast.key_names_iff` |
| C148 Coordinate systems of GOCAD files are read and kept | gocad_common.cpp | partial | `GocadHeaders.crs_read`, `GocadHeaders.crs_readable`, `GocadHeaders.crs_kept_fails`, `GocadHeaders.crs_kept_partial` |
| C149 Voxets are loaded with the grid of their axes | vo_input.cpp | partial | `VoxetGrid.grid_read`, `VoxetGrid.grid_ub`, `VoxetGrid.grid_outcomes`, `VoxetGrid.vector_axes_fail`, `VoxetGrid.vector_axes_partial`, `VoxetGrid.size_found_fails`, `VoxetGrid.size_found_partial` |
| C150 Depths of voxets become elevations | vo_input.cpp | partial | `VoxetGrid.head_parts`, `VoxetGrid.depths_read_fail`, `VoxetGrid.depths_read_partial`, `ExactOrigins.depths_iff` |
| C151 Saving again a GOCAD mesh that was loaded gives the same file | pl_input.cpp, pl_output.cpp, ts_input.cpp, ts_output.cpp, vs_input.cpp, vs_output.cpp | partial | `GocadStable.ts_stable`, `GocadStable.ts_reload`, `GocadStable.vs_stable`, `GocadStable.vs_reload`, `GocadStable.pl_stable`, `PLineStable.pl_kept_stable`, `GocadStable.pl_properties_lost`, `GocadStable.pl_loop_changes`, `GocadStable.order_matters`, `Digits.ts_saved_again`, `Digits.vs_saved_again` |
| C152 A corner point grid without throw loads as a conforming grid | grdecl_input.cpp | proved | `GrdeclGrid.grid_loaded`, `GrdeclGrid.shared_vertices`, `GrdeclGrid.shared_facets`, `GrdeclGrid.vertices_shared`, `GrdeclGrid.throws` |
| C153 The data files of voxets that load are those whose lines are about cells of the grid | vo_input.cpp | partial | `VoxetData.data_loaded`, `VoxetData.data_values`, `VoxetData.data_ub`, `VoxetData.data_outcomes`, `VoxetData.no_titles`, `VoxetData.voxet_loaded` |
| C154 The outcome of every deviation survey is known | well_dev_input.cpp | partial | `WellOutcomes.dev_loads_iff`, `WellOutcomes.dev_loads_partial`, `WellOutcomes.dev_refused_partial`, `WellOutcomes.dev_few_titles`, `WellOutcomes.dev_titles_missing`, `WellOutcomes.dev_title_beyond`, `WellOutcomes.dev_title_repeated`, `WellOutcomes.dev_title_repeated_ub` |
| C155 The outcome of every GOCAD well is known | wl_input.cpp | partial | `WlOutcomes.wl_loads_iff`, `WlOutcomes.wl_outcomes_partial`, `WlOutcomes.wl_bad_record`, `WlOutcomes.records_checked_fails` |
| C156 The curve files that load are known | gocad_common.cpp, pl_input.cpp | proved | `CurveOutcomes.curve_loads_iff`, `CurveOutcomes.objects_unique`, `CurveOutcomes.curve_outcomes_partial` |
| C157 The point set files that load are known | gocad_common.cpp, vs_input.cpp | proved | `PointSetOutcomes.points_load_iff`, `PointSetOutcomes.objects_unique`, `PointSetOutcomes.points_outcomes` |
| C158 The surface files that load are known | gocad_common.cpp, ts_input.cpp | proved | `SurfaceOutcomes.surface_loads_iff`, `SurfaceOutcomes.objects_unique`, `SurfaceOutcomes.surface_outcomes_partial` |
| C159 Segments and triangles join vertices of their own object | gocad_common.cpp, pl_input.cpp, ts_input.cpp | partial | `CurveOutcomes.own_vertices_fails`, `CurveOutcomes.own_vertices_partial`, `CurveOutcomes.first_object`, `CurveOutcomes.joined_loads`, `CurveOutcomes.first_object_ub`, `CurveOutcomes.earlier_vertex`, `SurfaceOutcomes.own_vertices_fails`, `SurfaceOutcomes.own_vertices_partial`, `SurfaceOutcomes.first_object`, `SurfaceOutcomes.joined_loads`, `SurfaceOutcomes.first_object_ub` |
| C160 GOCAD files can be put one after the other | gocad_common.cpp, pl_input.cpp, ts_input.cpp, vs_input.cpp | proved | `GocadFiles.Curve.curve_append`, `GocadFiles.Surface.surface_append`, `GocadFiles.Points.points_append`, `GocadFiles.Surface.saved_append` |
| C161 Each title line of a GOCAD file starts an object | gocad_common.cpp, pl_input.cpp, ts_input.cpp, vs_input.cpp | partial | `GocadFiles.Curve.one_each_fails`, `GocadFiles.Curve.one_each_partial`, `GocadFiles.Curve.noIline_loads`, `GocadFiles.Curve.noEnd_loads`, `GocadFiles.Surface.one_each_fails`, `GocadFiles.Surface.one_each_partial`, `GocadFiles.Surface.noTface_loads`, `GocadFiles.Points.one_each_fails`, `GocadFiles.Points.one_each_partial`, `GocadFiles.Points.noPoint_loads` |
| C162 The property headers that are read are known | gocad_common.cpp | partial | `PropHeaders.header_iff`, `PropHeaders.quoted_iff`, `PropHeaders.quoted_ub`, `PropHeaders.header_outcomes_partial`, `PropHeaders.one_unit_ub`, `PropHeaders.no_unit_throws` |
| C163 The LSO files that load are known | lso_input.cpp | proved | `LsoOutcomes.lso_loads_iff`, `LsoOutcomes.small_loads` |
| C164 The ML files that load are known | ml_input.cpp | proved | `MlOutcomes.ml_loads_iff`, `MlOutcomes.closeBlock_iff`, `MlOutcomes.groups_of_loaded`, `MlOutcomes.two_loads` |
| C165 ML objects are found by their names | ml_input.cpp | partial | `MlOutcomes.found_by_name_fails`, `MlOutcomes.found_by_name_partial`, `MlOutcomes.swapped_loads` |
| C166 Lines internal to ML surfaces are known | ml_input.cpp | proved | `MlRelations.built_internals`, `MlRelations.lines_related`, `MlRelations.loose_iff` |
| C167 Boundary lines of ML surfaces are not internal to them | ml_input.cpp | partial | `MlRelations.boundary_only_fails`, `MlRelations.boundary_only_partial` |
| C168 ML files that do not load are refused | ml_input.cpp | partial | `MlRefused.refused_fails`, `MlRefused.refused_partial`, `MlRefused.ml_ub_iff`, `MlRefused.ml_diverge_iff`, `MlRefused.step_ub`, `MlRefused.create_defined` |
| C169 LSO files that do not load are refused | lso_input.cpp | partial | `LsoRefused.refused_fails`, `LsoRefused.refused_partial`, `LsoRefused.lso_ub_iff`, `LsoRefused.lso_ends`, `LsoRefused.vertex_ub`, `LsoRefused.tetra_ub`, `LsoRefused.surfaces_ub`, `LsoRefused.blocks_ub` |
| C170 Deviation surveys that do not load are refused | well_dev_input.cpp | partial | `DevRefused.refused_fails`, `DevRefused.refused_partial`, `DevRefused.dev_ub_iff`, `DevRefused.dev_loads_iff_all`, `DevRefused.dev_ends`, `DevRefused.row_cases` |
| C171 Coordinate systems and property headers that cannot be read are refused | gocad_common.cpp | partial | `HeadersRefused.crs_ub_iff`, `HeadersRefused.header_ub_iff`, `HeadersRefused.system_refused_partial`, `HeadersRefused.system_refused_fails`, `HeadersRefused.header_refused_partial`, `HeadersRefused.header_refused_fails` |
| C172 Curves, point sets, surfaces and wells that do not load are refused | gocad_common.cpp, pl_input.cpp, ts_input.cpp, wl_input.cpp | partial | `GocadRefused.curve_ub_iff`, `GocadRefused.points_ub_iff`, `GocadRefused.surface_ub_iff`, `GocadRefused.well_ub_iff`, `GocadRefused.curve_refused_partial`, `GocadRefused.points_refused_partial`, `GocadRefused.surface_refused_partial`, `GocadRefused.curve_refused_fails`, `GocadRefused.points_refused_fails`, `GocadRefused.surface_refused_fails`, `GocadRefused.well_refused_fails`, `GocadRefused.lso_header_iff`, `GocadRefused.ml_system_iff` |
| C173 Voxets that do not load are refused | vo_input.cpp | partial | `VoxetRefused.voxet_loads_iff`, `VoxetRefused.voxet_is`, `VoxetRefused.voxet_ub_iff`, `VoxetRefused.refused_partial`, `VoxetRefused.refused_fails`, `VoxetRefused.record_name`, `VoxetRefused.record_quoted`, `VoxetRefused.head_ub` |
| C174 Corner point grids that do not load are refused | grdecl_input.cpp | partial | `GrdeclRefused.grid_loads_iff`, `GrdeclRefused.grid_ub_iff`, `GrdeclRefused.grid_diverge_iff`, `GrdeclRefused.refused_partial`, `GrdeclRefused.refused_fails`, `GrdeclRefused.dims_iff`, `GrdeclRefused.dims_diverge`, `GrdeclRefused.pillars_ok`, `GrdeclRefused.pillars_ub`, `GrdeclRefused.pillars_diverge`, `GrdeclRefused.depths_cases` |
| C175 Shapefiles that do not load are refused | shp_input.cpp | partial | `ShpRefused.shp_loads_iff`, `ShpRefused.shp_ub_iff`, `ShpRefused.shp_throw_iff`, `ShpRefused.refused_partial`, `ShpRefused.refused_fails` |
| C176 Exports for GEOS that are not made are refused | geos_export.cpp, structural_model_geos_export.cpp | partial | `GeosRefused.prepare_iff`, `GeosRefused.brep_export_iff`, `GeosRefused.model_export_iff`, `GeosRefused.refused_partial`, `GeosRefused.refused_fails` |
| C177 Saving and loading an ML model a second time changes nothing | ml_input.cpp, ml_output_impl.hpp | partial | `MlStable.stable_partial`, `MlStable.stable_iff`, `MlStable.unstable`, `MlStable.stable_fails` |
| C178 Saving and loading an LSO model a second time changes nothing | lso_input.cpp, lso_output.cpp | partial | `LsoStable.stable_partial`, `LsoStable.stable_iff`, `LsoStable.bounded_iff`, `LsoStable.unstable`, `LsoStable.stable_fails`, `LsoStable.again_saved_iff`, `LsoStable.again_kept` |
| C179 Saved curves can be loaded | pl_input.cpp, pl_output.cpp | partial | `PLineLoops.saved_loads_iff`, `PLineLoops.saved_loads_partial`, `PLineLoops.saved_loads_fails` |
| C180 Coordinates come back to six digits | lso_output.cpp, pl_output.cpp, ts_input.cpp, ts_output.cpp, vs_output.cpp | proved | `Digits.ts_close`, `Digits.vs_close`, `Digits.pl_close`, `Digits.lso_close`, `Digits.ml_close`, `Digits.close`, `Digits.kept_iff`, `Digits.valueClose` |
| C181 Different vertices stay different | ts_input.cpp, ts_output.cpp | partial | `Digits.stay_apart_partial`, `Digits.far_triangle`, `Digits.not_apart` |
| C182 Values in .fem files keep their digits | fem_output.cpp | partial | `Digits.fem_values`, `Digits.digits_kept_partial`, `Digits.small_values`, `Digits.permeability`, `Digits.digits_not_kept` |
| C183 Files of Windows load as others | grdecl_input.cpp, lso_input.cpp, ml_input.cpp, pl_input.cpp, ts_input.cpp, vo_input.cpp | proved | `LineEnds.windows_loaded`, `LineEnds.windows_grids`, `LineEnds.recognised_line_ends` |
| C184 Blanks at the ends of lines do not matter | grdecl_input.cpp, lso_input.cpp, ml_input.cpp, ts_input.cpp, vo_input.cpp, well_dev_input.cpp | partial | `LineEnds.gocad_line_ends`, `LineEnds.well_line_ends`, `LineEnds.ml_line_ends`, `LineEnds.lso_line_ends`, `LineEnds.grdecl_line_ends`, `LineEnds.voxet_line_ends`, `LineEnds.voxet_blank`, `LineEnds.recognised_line_ends` |
| C185 Comment lines do not change what is loaded | gocad_common.cpp, pl_input.cpp, ts_input.cpp, vo_input.cpp, vs_input.cpp, wl_input.cpp | partial | `Comments.mesh_comments_partial`, `Comments.well_comments_partial`, `Comments.voxet_comments_partial`, `Comments.comments_do_harm`, `Comments.comments_not_ignored`, `Comments.well_cut` |
| C186 A file is loaded as one kind of object | common.cpp, geotiff_input.hpp, horizons_stack_skua_input.hpp, polytiff_input.hpp | partial | `Priorities.decided_partial`, `Priorities.columns_not_decided`, `Priorities.readers_have_priorities`, `Priorities.images_are_surfaces`, `Priorities.stratigraphic_decided`, `PrioritiesExact.decided_iff` |
| C187 Undefined values do not spoil FEM properties | fem_output.cpp | partial | `FemNan.all_listed_iff`, `FemNan.numbers_listed`, `FemNan.nan_ub_iff`, `FemNan.same_without_nan`, `FemNan.one_missing` |
| C188 Models loaded from .lso files can be saved to .ml files | lso_input.cpp, ml_input.cpp, ml_output_impl.hpp, ml_output_structural_model.cpp | partial | `LsoToMl.converted_partial`, `LsoToMl.converted_iff`, `LsoToMl.never_converted`, `LsoToMl.groups_loaded`, `LsoToMl.boundary_refused`, `LsoToMl.not_always_converted`, `LsoToMl.surfaces_sorted` |
| C189 Shapefiles recognised are those something is loaded from | shp_input.cpp | partial | `ShpRecognise.tells_partial`, `ShpRecognise.something_iff`, `ShpRecognise.not_recognised`, `ShpRecognise.recognised_empty`, `ShpRecognise.recognised_refused`, `ShpRecognise.does_not_tell` |
| C190 The order of the sections of a corner point grid does not matter | grdecl_input.cpp | partial | `GrdeclOrder.order_partial`, `GrdeclOrder.load_pieces`, `GrdeclOrder.depths_first`, `GrdeclOrder.order_matters` |
| C191 The depths of a corner point grid are read however they are written | grdecl_input.cpp | partial | `GrdeclOrder.notation_partial`, `GrdeclOrder.pillars_notation`, `GrdeclOrder.notation_fails`, `GrdeclOrder.strict_int` |
| C192 Other sections do not change a corner point grid | grdecl_input.cpp | partial | `GrdeclOrder.others_partial`, `GrdeclOrder.longer_keyword_refused`, `GrdeclOrder.others_matter` |
| C193 Blanks between words do not matter | grdecl_input.cpp, lso_input.cpp, ml_input.cpp, ts_input.cpp, vo_input.cpp, well_dev_input.cpp | partial | `Spacing.gocad_spacing_partial`, `Spacing.well_spacing_partial`, `Spacing.model_spacing_partial`, `Spacing.grdecl_spacing_partial`, `Spacing.voxet_spacing_partial`, `Spacing.title_matters`, `Spacing.indentation_matters`, `Spacing.data_file_matters`, `Spacing.not_onlyWords` |
| C194 Vertices may have any numbers | gocad_common.cpp, lso_input.cpp, pl_input.cpp, ts_input.cpp | partial | `GocadNumbers.surface_numbers_partial`, `GocadNumbers.curve_numbers_partial`, `GocadNumbers.surface_numbers_iff`, `GocadNumbers.curve_numbers_iff`, `GocadNumbers.gap_always`, `GocadNumbers.gap_undefined`, `GocadNumbers.swapped_wrong`, `GocadNumbers.solid_numbers_ignored`, `GocadNumbers.solid_swapped`, `GocadNumbers.not_anyNumbers` |
| C195 Components of ML files may have any numbers | ml_input.cpp | partial | `MlAnyNumbers.component_numbers_partial`, `MlAnyNumbers.region_numbers_iff`, `MlAnyNumbers.component_numbers_ignored`, `MlAnyNumbers.swapped_wrong`, `MlAnyNumbers.not_anyComponentNumbers` |
| C196 The order of the records of an ML file is free | ml_input.cpp | partial | `MlOrder.order_partial`, `MlOrder.layers_last`, `MlOrder.layer_blind`, `MlOrder.layer_emptied`, `MlOrder.not_anyOrder`, `MlOrderExact.order_iff`, `MlOrderExact.order_last_iff` |
| C197 The points that are one in an ML file do not depend on the unit | ml_input.cpp | partial | `MlTolerance.close_iff`, `MlTolerance.tolerant_partial`, `MlTolerance.never_far`, `MlTolerance.close_moved`, `MlTolerance.close_same`, `MlTolerance.close_symm`, `MlTolerance.close_refl`, `MlTolerance.built_moved`, `MlTolerance.flat_exact`, `MlTolerance.flat_new_line`, `MlTolerance.map_apart`, `MlTolerance.not_allTolerant`, `MlTolerance.not_transitive` |
| C198 The hexahedra of corner point grids have eight distinct vertices | grdecl_input.cpp | partial | `GrdeclPinch.eight_iff`, `GrdeclPinch.eight_partial`, `GrdeclPinch.pinched`, `GrdeclPinch.not_allEight` |
| C199 The inactive cells of corner point grids are left out | grdecl_input.cpp | partial | `GrdeclPinch.all_cells`, `GrdeclPinch.inactive_ignored`, `GrdeclPinch.active_partial`, `GrdeclPinch.not_activeOnly` |
| C200 Other lines between the records of ML files are ignored | ml_input.cpp | partial | `MlOthers.others_partial`, `MlOthers.short_line`, `MlOthers.early_end`, `MlOthers.not_ignored`, `MlOthers.begins_written` |
| C201 Models saved to LSO files can be loaded | lso_input.cpp, lso_output.cpp | partial | `LsoLoads.saved_loads_partial`, `LsoLoads.saved_ub_iff`, `LsoLoads.empty_refused`, `LsoLoads.no_tetra_ub`, `LsoLoads.names_back`, `LsoLoads.named_iff`, `LsoLoads.not_always_loaded` |
| C202 Models loaded from ML files can be saved to ML files | ml_input.cpp, ml_output_impl.hpp | partial | `MlResaved.resaved_partial`, `MlResaved.resaved_iff`, `MlResaved.loaded_sane`, `MlResaved.resaved_fails` |
| C203 Models loaded from LSO files can be saved to LSO files | lso_input.cpp, lso_output.cpp | partial | `LsoResaved.resaved_partial`, `LsoResaved.resaved_iff`, `LsoResaved.loaded_sane`, `LsoResaved.resaved_fails` |
| C204 Curves and wells that are loaded can be saved as curves | pl_output.cpp, well_dev_input.cpp, wl_input.cpp | proved | `WellsSaved.well_saved`, `WellsSaved.curve_saved`, `WellsSaved.well_edges` |
| C205 Wells saved as curves come back | pl_input.cpp, pl_output.cpp, well_dev_input.cpp, wl_input.cpp | partial | `WellsSaved.well_round_trip_partial`, `WellsSaved.well_round_trip_iff`, `WellsSaved.well_round_trip_fails`, `WellsSaved.run_round_trip` |
| C206 Surfaces and point sets that are loaded come back from the files they are saved in | gocad_common.cpp, ts_input.cpp, ts_output.cpp, vs_input.cpp, vs_output.cpp | partial | `MeshResaved.surface_back_partial`, `MeshResaved.surface_back_iff`, `MeshResaved.set_back_iff`, `MeshResaved.surface_sane`, `MeshResaved.surface_name_lost`, `MeshResaved.empty_set_lost` |
