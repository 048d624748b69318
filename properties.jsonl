{"id": "C01", "title": "TSurf save/load preserves the geometry", "statement": "Saving a triangulated surface to a .ts file and loading that file yields a surface with the same number of vertices and triangles, every point equal to the original up to the decimal formatting of its coordinates, every triangle made of the same vertex indices in the same order, and the same name.", "quantifier": "every triangulated surface (any number of vertices and triangles, any in-range triangles, any coordinates) with a file-safe name or none", "why_tests_cant": "the index base is derived from the first vertex line and applied to every triangle; a test only tries a few files", "anchors": ["src/geode/geosciences_io/mesh/ts_output.cpp:write_file", "src/geode/geosciences_io/mesh/ts_input.cpp:read_file", "src/geode/geosciences_io/mesh/gocad_common.cpp:read_tsurf"]}
{"id": "C02", "title": "TSurf save/load preserves scalar vertex properties", "statement": "Every scalar vertex property of a saved triangulated surface exists after loading with the same name and, at each vertex, the value that was saved (up to decimal formatting).", "quantifier": "every surface, every list of properties with distinct file-safe names, every vertex", "why_tests_cant": "names with blanks, several properties and property order interact through the positional header lines", "anchors": ["src/geode/geosciences_io/mesh/ts_output.cpp:write_prop_header", "src/geode/geosciences_io/mesh/gocad_common.cpp:read_prop_header", "src/geode/geosciences_io/mesh/gocad_common.cpp:create_attributes"]}
{"id": "C03", "title": "VSet save/load preserves points and properties", "statement": "Saving a point set to a .vs file and loading it yields the same points in the same order (up to decimal formatting) and the same scalar properties with the same values.", "quantifier": "every point set, including the empty one, every list of properties with distinct file-safe names", "why_tests_cant": "must hold for all sizes including zero", "anchors": ["src/geode/geosciences_io/mesh/vs_output.cpp:write_file", "src/geode/geosciences_io/mesh/vs_input.cpp:read_file"]}
{"id": "C04", "title": "PLine save/load preserves the curve", "statement": "Saving an edged curve to a .pl file and loading it yields a curve made of the same segments: the multiset of unordered pairs of end points is unchanged, for open lines, branching vertices and closed loops alike.", "quantifier": "every edged curve: any mixture of open lines, branching vertices, closed loops and isolated vertices", "why_tests_cant": "the writer walks the graph; a test only tries a few topologies and only compares counts", "anchors": ["src/geode/geosciences_io/mesh/pl_output.cpp:write_ilines", "src/geode/geosciences_io/mesh/pl_input.cpp:read_file"]}
{"id": "C05", "title": "PLine writer emits every edge exactly once and terminates", "statement": "Saving an edged curve always terminates and writes exactly one segment record per edge of the curve.", "quantifier": "every edged curve", "why_tests_cant": "termination of the graph walk depends on the topology of the whole curve", "anchors": ["src/geode/geosciences_io/mesh/pl_output.cpp:get_edged_vertex_on_iline", "src/geode/geosciences_io/mesh/pl_output.cpp:write_ilines"]}
{"id": "C06", "title": "A file holding several TSurf objects loads as their disjoint union", "statement": "Loading a .ts file that holds several objects one after the other yields the points of all objects in file order and the triangles of each object shifted by the number of points before it.", "quantifier": "every list of TSurf objects, each with its own numbering base", "why_tests_cant": "any number of objects with arbitrary numbering bases", "anchors": ["src/geode/geosciences_io/mesh/ts_input.cpp:build_surface", "src/geode/geosciences_io/mesh/gocad_common.cpp:read_tsurf"]}
{"id": "C07", "title": "Properties of several objects in one file stay attached to their own vertices", "statement": "Loading a .ts or .vs file that holds several objects gives each vertex the property values written on its own line.", "quantifier": "every list of objects sharing property names", "why_tests_cant": "the attribute storage is shared between the objects of a file", "anchors": ["src/geode/geosciences_io/mesh/ts_input.cpp:build_surface", "src/geode/geosciences_io/mesh/vs_input.cpp:build_point_set", "src/geode/geosciences_io/mesh/gocad_common.cpp:create_attributes"]}
{"id": "C08", "title": "Numbering base independence", "statement": "Adding one constant to every vertex number used in a TSurf or PLine object (vertex, atom, triangle, segment, border stone and border lines) does not change the loaded mesh.", "quantifier": "every object whose records begin with a vertex, every constant", "why_tests_cant": "unbounded set of numberings, including wrap-around of 32-bit indices", "anchors": ["src/geode/geosciences_io/mesh/gocad_common.cpp:read_tfaces", "src/geode/geosciences_io/mesh/gocad_common.cpp:read_ilines"]}
{"id": "C09", "title": "Depth/elevation convention", "statement": "Loading a file whose coordinate system says 'ZPOSITIVE Depth' gives the same mesh as the file that says 'ZPOSITIVE Elevation' with the third coordinate of every vertex negated and everything else equal.", "quantifier": "every TSurf, PLine and VSet file body", "why_tests_cant": "must hold for all bodies", "anchors": ["src/geode/geosciences_io/mesh/gocad_common.cpp:read_CRS", "src/geode/geosciences_io/mesh/gocad_common.cpp:read_tfaces"]}
{"id": "C10", "title": "Property names containing blanks survive the header", "statement": "A property name, class, kind or unit written in a GOCAD property header is read back unchanged, whatever the number of words in it and whatever its neighbours.", "quantifier": "every list of names made of one or more blank-separated words without quote characters", "why_tests_cant": "positional parsing: one misread name shifts all following ones", "anchors": ["src/geode/geosciences_io/mesh/gocad_common.cpp:write_string_with_quotes", "src/geode/geosciences_io/mesh/gocad_common.cpp:split_string_considering_quotes"]}
{"id": "C11", "title": "Property header round trip", "statement": "The property header written for any list of properties is read back with the same names, ranges, no-data values, classes, kinds, subclasses, sizes and units.", "quantifier": "every list of properties with well-formed fields", "why_tests_cant": "eight positional lines have to stay aligned for any number of properties", "anchors": ["src/geode/geosciences_io/mesh/gocad_common.cpp:write_prop_header", "src/geode/geosciences_io/mesh/gocad_common.cpp:read_prop_header"]}
{"id": "C12", "title": "Truncated GOCAD objects are reported", "statement": "Loading a .ts, .vs or .pl file that stops before the END of an object raises an exception; it never returns a mesh silently missing data.", "quantifier": "every truncation point of every file", "why_tests_cant": "every prefix of every file", "anchors": ["src/geode/geosciences_io/mesh/gocad_common.cpp:read_tfaces", "src/geode/geosciences_io/mesh/gocad_common.cpp:read_VSet_vertices", "src/geode/geosciences_io/mesh/gocad_common.cpp:read_ilines", "src/geode/geosciences_io/mesh/gocad_common.cpp:read_header"]}
{"id": "C13", "title": "A missing closing quote is reported", "statement": "Loading a GOCAD file with a quoted string that is never closed raises an exception.", "quantifier": "every token list", "why_tests_cant": "out-of-bounds reads do not fail tests", "anchors": ["src/geode/geosciences_io/mesh/gocad_common.cpp:get_string_between_quote"]}
{"id": "C14", "title": "Missing property values are reported, extra tokens are ignored", "statement": "A vertex line carrying fewer values than the property header announces raises an exception; a line carrying more loads as if the extra tokens were absent.", "quantifier": "every property header and every vertex line", "why_tests_cant": "any number of properties with any sizes", "anchors": ["src/geode/geosciences_io/mesh/gocad_common.cpp:read_properties"]}
{"id": "C15", "title": "ATOM records duplicate an existing vertex", "statement": "An ATOM line adds a vertex with the coordinates of the vertex it references; a reference to a vertex not yet defined raises an exception.", "quantifier": "every TSurf body", "why_tests_cant": "any reference, including numbers below the base which wrap around", "anchors": ["src/geode/geosciences_io/mesh/gocad_common.cpp:read_tfaces"]}
{"id": "C16", "title": "No undefined behaviour on arbitrary GOCAD text", "statement": "Loading any text file through the .ts, .pl or .vs readers either returns a mesh or raises an exception.", "quantifier": "every sequence of lines", "why_tests_cant": "all inputs, including blank lines and short lines", "anchors": ["src/geode/geosciences_io/mesh/gocad_common.cpp:read_tfaces", "src/geode/geosciences_io/mesh/gocad_common.cpp:read_ilines", "src/geode/geosciences_io/mesh/gocad_common.cpp:read_VSet_vertices"]}
{"id": "C17", "title": "Object names survive save/load", "statement": "A name made of words separated by single blanks and without quotes is read back unchanged; other names are read back with blanks collapsed and quotes removed.", "quantifier": "every string without line breaks", "why_tests_cant": "all strings", "anchors": ["src/geode/geosciences_io/mesh/gocad_common.cpp:read_header", "src/geode/geosciences_io/mesh/gocad_common.cpp:write_header", "src/geode/geosciences_io/mesh/gocad_common.cpp:read_name"]}
{"id": "C18", "title": "Point-list wells load as a polyline", "statement": "Loading a .dat or .txt well of n lines yields n vertices with the coordinates of the lines in order and exactly the n-1 edges joining consecutive vertices; a line with a number of tokens other than three raises an exception.", "quantifier": "every file, including the empty one", "why_tests_cant": "all sizes including zero", "anchors": ["include/geode/geosciences_io/mesh/internal/well_input.hpp:read_file"]}
{"id": "C19", "title": "Petrel deviation surveys: columns go to the right attribute", "statement": "Loading a .dev well gives every vertex the coordinates of the columns titled X, Y and Z and stores each other column in the attribute of that title, whatever the order of the columns; a row with a wrong number of values raises an exception.", "quantifier": "every column order, any number of columns and rows", "why_tests_cant": "every permutation of the columns", "anchors": ["src/geode/geosciences_io/mesh/well_dev_input.cpp:read_header", "src/geode/geosciences_io/mesh/well_dev_input.cpp:create_point", "src/geode/geosciences_io/mesh/well_dev_input.cpp:assign_point_attributes"]}
{"id": "C20", "title": "GOCAD wells: every path record becomes a vertex", "statement": "Loading a .wl file yields a polyline that starts at the well reference and continues through every PATH record in order.", "quantifier": "every file", "why_tests_cant": "any number of records; the first record is special", "anchors": ["src/geode/geosciences_io/mesh/wl_input.cpp:read_paths"]}
{"id": "C21", "title": "Voxet cell data reach the right cell", "statement": "After loading a .vo file, the value of a data property in cell (i,j,k) is the value of the last data line starting with 'i j k', and 0 if there is none; a data line with a wrong number of values raises an exception.", "quantifier": "every grid size, every data file", "why_tests_cant": "every order and repetition of the data lines", "anchors": ["src/geode/geosciences_io/mesh/vo_input.cpp:read_data_file"]}
{"id": "C22", "title": "Voxet data file is looked for where it is read", "statement": "The data file announced as a mandatory additional file of a .vo file, with its existence status, is the file the reader opens.", "quantifier": "every file name and data file record", "why_tests_cant": "every combination of folder and record text", "anchors": ["src/geode/geosciences_io/mesh/vo_input.cpp:additional_files", "src/geode/geosciences_io/mesh/vo_input.cpp:read_data_file"]}
{"id": "C23", "title": "GRDECL: each depth value is used by exactly one cell corner", "statement": "For a corner-point grid of nx x ny x nz cells, the eight corners of all cells use each of the 8 nx ny nz ZCORN values exactly once, and never read outside of them.", "quantifier": "every nx, ny, nz whose sizes fit in 32 bits", "why_tests_cant": "all grid sizes", "anchors": ["src/geode/geosciences_io/mesh/grdecl_input.cpp:cell_points"]}
{"id": "C24", "title": "GRDECL: corners lie on shared pillars", "statement": "Every cell corner is placed on the pillar at its grid position, horizontally adjacent cells use the same two pillars on their common side, the four pillars of a cell are distinct, and a corner has the depth given in ZCORN.", "quantifier": "every grid size and every cell", "why_tests_cant": "all grid sizes", "anchors": ["src/geode/geosciences_io/mesh/grdecl_input.cpp:cell_pillars_id", "src/geode/geosciences_io/mesh/grdecl_input.cpp:interpolate_on_pillar"]}
{"id": "C25", "title": "GRDECL loader terminates on truncated input", "statement": "Loading a .grdecl file with a missing '/' terminator or a missing dimension line ends with an exception.", "quantifier": "every file prefix", "why_tests_cant": "non-termination cannot be established by tests", "anchors": ["src/geode/geosciences_io/mesh/grdecl_input.cpp:read_dimensions", "src/geode/geosciences_io/mesh/grdecl_input.cpp:read_pillars_from_file", "src/geode/geosciences_io/mesh/grdecl_input.cpp:read_depths_from_file"]}
{"id": "C26", "title": "GRDECL loader accepts exactly the announced number of values", "statement": "A file with more or fewer pillars or depths than the announced dimensions require raises an exception.", "quantifier": "every file", "why_tests_cant": "out-of-bounds writes and uninitialised reads do not fail tests", "anchors": ["src/geode/geosciences_io/mesh/grdecl_input.cpp:read_pillars_from_file", "src/geode/geosciences_io/mesh/grdecl_input.cpp:read_depths_from_file"]}
{"id": "C27", "title": "GRDECL pillar layout does not matter", "statement": "Writing a pillar on one line of six numbers or on two lines of three numbers gives the same grid.", "quantifier": "every list of pillars and every mixture of layouts", "why_tests_cant": "every mixture of layouts", "anchors": ["src/geode/geosciences_io/mesh/grdecl_input.cpp:read_pillar"]}
{"id": "C28", "title": "DEM: one vertex per valid pixel, one quad per square of valid pixels", "statement": "Loading a raster creates exactly one vertex per pixel whose elevation is not the no-data value, in row order, and exactly one polygon for each 2x2 square of valid pixels, made of the vertices of those four pixels.", "quantifier": "every raster size and every no-data mask", "why_tests_cant": "every mask", "anchors": ["src/geode/geosciences_io/mesh/dem_input.cpp:read_vertices", "src/geode/geosciences_io/mesh/dem_input.cpp:create_polygons"]}
{"id": "C29", "title": "DEM polygons are simple", "statement": "The vertices of each polygon created from a raster are listed in the order of its contour, so that it does not cross itself and polygons of adjacent squares share their common edge.", "quantifier": "every raster", "why_tests_cant": "a test only counts polygons", "anchors": ["src/geode/geosciences_io/mesh/dem_input.cpp:create_polygons"]}
{"id": "C30", "title": "FEM range lists denote exactly the given indices", "statement": "The compressed list written in a FEM file for a set of element or node indices, expanded by the FEFLOW rule ('a' is a, 'a-b' is a..b), is exactly the given indices plus one.", "quantifier": "every increasing list of indices", "why_tests_cant": "all lists, all chunk positions", "anchors": ["src/geode/geosciences_io/mesh/fem_output.cpp:format_range_chunks"]}
{"id": "C31", "title": "FEM range lines keep within the line limit", "statement": "No line of a compressed list exceeds the 1500 character chunk limit by more than one item, and no item is split over two lines.", "quantifier": "every increasing list of indices", "why_tests_cant": "depends on where the chunk boundaries fall", "anchors": ["src/geode/geosciences_io/mesh/fem_output.cpp:format_range_chunks"]}
{"id": "C32", "title": "FEM nodal properties list all nodes with a non-default value", "statement": "For every scalar node property, each node is listed once, under its own value.", "quantifier": "every mesh", "why_tests_cant": "only visible when nodes and elements differ in number", "anchors": ["src/geode/geosciences_io/mesh/fem_output.cpp:create_attribute_distribution", "src/geode/geosciences_io/mesh/fem_output.cpp:write_ref_nodal_dist"]}
{"id": "C33", "title": "FEM element properties group the elements by value", "statement": "For every scalar element property, each element is listed exactly once, under its own value.", "quantifier": "every list of numbers (for values that are not numbers see C187)", "why_tests_cant": "all value distributions", "anchors": ["src/geode/geosciences_io/mesh/fem_output.cpp:create_attribute_distribution"]}
{"id": "C34", "title": "FEM discrete features are numbered consistently", "statement": "Discrete feature elements are numbered consecutively from 1 in the order they are written, and every later section refers to a feature by that number.", "quantifier": "every set of tagged edges and facets", "why_tests_cant": "any number of features", "anchors": ["src/geode/geosciences_io/mesh/fem_output.cpp:build_discrete_features"]}
{"id": "C35", "title": "Relative orientations are consistent", "statement": "The orientation signs given to the surfaces of a closed boundary agree with every adjacent pair (two surfaces sharing a line get equal signs exactly when they run along it in opposite directions), the first one gets +, and a set of surfaces that is not connected raises an exception.", "quantifier": "every set of surfaces and every pairing", "why_tests_cant": "every adjacency graph", "anchors": ["src/geode/geosciences_io/model/internal/gocad_common.cpp:determine_relative_signs"]}
{"id": "C36", "title": "Universe and block sides are opposite", "statement": "For a block bounded by exactly the model boundary, the sides written for the universe are the opposite of those written for the block.", "quantifier": "every model", "why_tests_cant": "depends on signed volumes of arbitrary geometry", "anchors": ["src/geode/geosciences_io/model/internal/gocad_common.cpp:determine_universe_sides", "src/geode/geosciences_io/model/internal/gocad_common.cpp:determine_regions_sides"]}
{"id": "C37", "title": "ML component numbers refer to the right component", "statement": "In a saved .ml file the numbers used by the universe, the regions, the layers and the fault blocks are the ranks of the components in the list of the file.", "quantifier": "every model", "why_tests_cant": "the counter crosses several sections", "anchors": ["src/geode/geosciences_io/model/internal/ml_output_impl.hpp:write_tfaces", "src/geode/geosciences_io/model/internal/ml_output_impl.hpp:write_regions"]}
{"id": "C38", "title": "ML regions: boundary and internal surfaces survive save/load", "statement": "Loading the region records saved for a block gives back exactly its boundary surfaces (with a side each) and its internal surfaces (listed on both sides).", "quantifier": "every block with any number of boundary and internal surfaces", "why_tests_cant": "every combination of counts, including one boundary surface", "anchors": ["src/geode/geosciences_io/model/internal/ml_output_impl.hpp:write_regions", "src/geode/geosciences_io/model/internal/ml_input.cpp:create_block_topology"]}
{"id": "C39", "title": "ML layers and fault blocks survive save/load", "statement": "The blocks listed in a LAYER or FAULT_BLOCK record are exactly the blocks of that stratigraphic unit or fault block after loading; the universe is skipped and unknown numbers are ignored.", "quantifier": "every record, with any numbers; every saved model that can be loaded", "why_tests_cant": "numbering offsets by number of surfaces", "anchors": ["src/geode/geosciences_io/model/internal/ml_input.cpp:create_stratigraphic_unit_topology", "src/geode/geosciences_io/model/internal/ml_output_structural_model.cpp:write_geological_regions"]}
{"id": "C40", "title": "ML vertex numbers are global over the surfaces of a TSurf", "statement": "In a saved .ml file the triangles of the k-th face of a TSurf refer to vertices shifted by the number of vertices of the previous faces.", "quantifier": "every list of surfaces", "why_tests_cant": "any number of faces", "anchors": ["src/geode/geosciences_io/model/internal/ml_output_impl.hpp:write_surface"]}
{"id": "C41", "title": "ML loader terminates on truncated region lists", "statement": "Loading an .ml file whose universe, region, layer or fault block list is not closed by 0 ends with an exception.", "quantifier": "every file prefix", "why_tests_cant": "non-termination cannot be established by tests", "anchors": ["src/geode/geosciences_io/model/internal/ml_input.cpp:read_universe", "src/geode/geosciences_io/model/internal/ml_input.cpp:create_block_topology"]}
{"id": "C42", "title": "A block bounded by a single surface survives ML save/load", "statement": "A model with a block bounded by one closed surface can be saved to .ml and loaded.", "quantifier": "every model", "why_tests_cant": "out-of-bounds access on an empty remainder", "anchors": ["src/geode/geosciences_io/model/internal/ml_input.cpp:create_block_topology"]}
{"id": "C43", "title": "LSO vertex numbering", "statement": "In a saved .lso file, every vertex of every block has exactly one number, numbers are consecutive from 1 in file order, vertices shared by several blocks refer to the vertex they coincide with.", "quantifier": "every model", "why_tests_cant": "all sharing patterns", "anchors": ["src/geode/geosciences_io/model/internal/lso_output.cpp:write_vertices", "src/geode/geosciences_io/model/internal/lso_output.cpp:write_tetrahedron"]}
{"id": "C44", "title": "LSO tetrahedra survive save/load", "statement": "Loading a saved .lso file gives each block (identified by a distinct one-word name) its tetrahedra in order with the same corner points.", "quantifier": "every model with distinct one-word block names", "why_tests_cant": "numbering of shared vertices for all sharing patterns", "anchors": ["src/geode/geosciences_io/model/internal/lso_output.cpp:write_tetrahedron", "src/geode/geosciences_io/model/internal/lso_input.cpp:build_block_mesh"]}
{"id": "C45", "title": "LSO block names with blanks do not mix blocks", "statement": "Two blocks with different names keep separate tetrahedra after saving to .lso and loading.", "quantifier": "every pair of names", "why_tests_cant": "depends on the names", "anchors": ["src/geode/geosciences_io/model/internal/lso_output.cpp:write_regions", "src/geode/geosciences_io/model/internal/lso_input.cpp:read_blocks"]}
{"id": "C46", "title": "Loaded LSO per-tetrahedron properties stay on their tetrahedra", "statement": "After loading a .lso file with tetrahedron properties, each tetrahedron of each block has the property value written on its line.", "quantifier": "every file", "why_tests_cant": "index maps differ only when vertex and tetrahedron counts differ", "anchors": ["src/geode/geosciences_io/model/internal/lso_input.cpp:build_block_mesh"]}
{"id": "C47", "title": "GEOS region attribute identifies the region of each cell", "statement": "In the mesh exported for GEOS each cell carries the number of its region: its block rank for a BRep, the number of the stratigraphic unit that holds its block for a structural model.", "quantifier": "every model", "why_tests_cant": "requires every block to be in a unit", "anchors": ["src/geode/geosciences_io/model/internal/geos_export.cpp:initialize_solid_region_attribute", "src/geode/geosciences_io/model/helpers/structural_model_geos_export.cpp"]}
{"id": "C48", "title": "SHP polylines", "statement": "Loading a polyline part of n points yields a line through these points in order with n-1 edges when the part is open, and a closed line with n-1 distinct vertices and n-1 edges when its last point repeats the first.", "quantifier": "every part", "why_tests_cant": "all sizes including parts of 1 and 2 points", "anchors": ["src/geode/geosciences_io/model/internal/shp_input.cpp:read_line", "src/geode/geosciences_io/model/internal/shp_input.cpp:read_points"]}
{"id": "C49", "title": "SHP point layers give one corner vertex per point", "statement": "Each point feature of a point layer becomes a vertex associated with its own unique vertex of the section.", "quantifier": "every point layer", "why_tests_cant": "a test with one point cannot see it", "anchors": ["src/geode/geosciences_io/model/internal/shp_input.cpp:create_corner"]}
{"id": "C50", "title": "SKUA stacks: units, horizons and contacts", "statement": "Loading a local stratigraphic column yields every unit with the horizons named as its top and base, and the erosion/baselap/discontinuity relations stated by the structural contacts.", "quantifier": "every column description", "why_tests_cant": "all combinations of contact flags", "anchors": ["src/geode/geosciences_io/model/internal/horizons_stack_skua_input.cpp"]}
{"id": "C51", "title": "BRep FEM export paints apertures of every surface and line", "statement": "If any surface or line of a model carries the aperture attribute, the exported facets or edges of that surface or line carry its value.", "quantifier": "every model", "why_tests_cant": "depends on which component comes first", "anchors": ["src/geode/geosciences_io/model/internal/brep_fem_output.cpp:paint_surface_infos", "src/geode/geosciences_io/model/internal/brep_fem_output.cpp:paint_line_infos"]}
{"id": "C52", "title": "Several VSet objects in one file", "statement": "A .vs file that holds several non-empty VSet objects loads as one point set with the points of all objects in file order.", "quantifier": "every non-empty list of objects", "why_tests_cant": "all numbers of objects and points", "anchors": ["src/geode/geosciences_io/mesh/vs_input.cpp:read_file", "src/geode/geosciences_io/mesh/gocad_common.cpp:read_vs_points"]}
{"id": "C53", "title": "Surfaces from images have the elevations of the file", "statement": "Every vertex of the surface loaded from an elevation image has an elevation read from the file or the no-data value of the file.", "quantifier": "every image size and content", "why_tests_cant": "uninitialised memory may look right by chance", "anchors": ["src/geode/geosciences_io/mesh/polytiff_input.cpp:read_file"]}
{"id": "C54", "title": "FEM sections announce the number of properties they hold", "statement": "The header of the node section and the header of the element section of a FEM file state the number of properties that follow.", "quantifier": "every mesh and every mixture of scalar and other attributes", "why_tests_cant": "needs meshes with attributes that are not scalar", "anchors": ["src/geode/geosciences_io/mesh/fem_output.cpp:write_ref_nodal_dist", "src/geode/geosciences_io/mesh/fem_output.cpp:write_ref_element_dist"]}
{"id": "C55", "title": "FEM sets list the members of each block", "statement": "The node sets of a FEM file list each node once under each of its block names, and the element sets list each element once under its block name.", "quantifier": "every distribution of block names and every order of iteration of the hash map", "why_tests_cant": "reading destroyed strings may look right by chance", "anchors": ["src/geode/geosciences_io/mesh/fem_output.cpp:write_nodal_sets", "src/geode/geosciences_io/mesh/fem_output.cpp:write_element_sets", "src/geode/geosciences_io/mesh/fem_output.cpp:create_region_map"]}
{"id": "C56", "title": "FEM files hold the mesh", "statement": "The n-th element line of a FEM file lists the vertices of the n-th tetrahedron numbered from 1, and the n-th node line has the coordinates of the n-th vertex.", "quantifier": "every mesh", "why_tests_cant": "all sizes and contents", "anchors": ["src/geode/geosciences_io/mesh/fem_output.cpp:write_var_node", "src/geode/geosciences_io/mesh/fem_output.cpp:write_node_coordinates"]}
{"id": "C57", "title": "FEM material sections list the features of each value", "statement": "The lines of a material section of the discrete features, each a value followed by ranges, give every feature its own value and no other.", "quantifier": "every map from values to features", "why_tests_cant": "only visible when the features of a value need several lines", "anchors": ["src/geode/geosciences_io/mesh/fem_output.cpp:write_material_property"]}
{"id": "C58", "title": "ML collections of surfaces survive save/load", "statement": "After saving a model to .ml and loading it, every model boundary, fault and horizon has the surfaces it had, in the same order and with their own vertices and triangles.", "quantifier": "every model, in particular models in which a surface is in several collections", "why_tests_cant": "all memberships; the meshes are matched by position in the file", "anchors": ["src/geode/geosciences_io/model/internal/ml_output_impl.hpp:write_tfaces", "src/geode/geosciences_io/model/internal/ml_output_impl.hpp:write_model_surfaces", "src/geode/geosciences_io/model/internal/ml_input.cpp:build_surfaces"]}
{"id": "C59", "title": "ML fault types and horizon contacts survive save/load", "statement": "After saving a model to .ml and loading it, every fault has the type it had and every horizon the contact it had.", "quantifier": "every type and contact", "why_tests_cant": "needs one model per type", "anchors": ["src/geode/geosciences_io/model/internal/ml_output_structural_model.cpp:fault_map_", "src/geode/geosciences_io/model/internal/ml_input.cpp:fault_map_"]}
{"id": "C60", "title": "Every saved ML file can be loaded", "statement": "Loading a .ml file that was saved without error ends without exception and without undefined behaviour.", "quantifier": "every model", "why_tests_cant": "names, empty collections and counts of every size", "anchors": ["src/geode/geosciences_io/model/internal/ml_output_impl.hpp:write_file", "src/geode/geosciences_io/model/internal/ml_input.cpp:read_file"]}
{"id": "C61", "title": "ML keeps all the blocks", "statement": "After saving a model to .ml and loading it, the model has as many blocks as before, with the same names up to blanks.", "quantifier": "every model and every block name", "why_tests_cant": "depends on the names", "anchors": ["src/geode/geosciences_io/model/internal/ml_output_impl.hpp:write_regions", "src/geode/geosciences_io/model/internal/ml_input.cpp:process_REGION_keyword"]}
{"id": "C62", "title": "ML adds no collection", "statement": "After saving a model to .ml and loading it, surfaces that were in no collection are in no collection.", "quantifier": "every model", "why_tests_cant": "depends on membership", "anchors": ["src/geode/geosciences_io/model/internal/ml_output_impl.hpp:write_tsurfs", "src/geode/geosciences_io/model/internal/ml_input.cpp:process_unassigned_model_boundaries"]}
{"id": "C63", "title": "LSO surfaces survive save/load", "statement": "After saving a model to .lso and loading it, the surfaces that are in a collection come back once each, in the order of the collections, with their own triangles on their own points.", "quantifier": "every model with words as block names, collections named by words separated by single blanks, at least one tetrahedron, and coincident vertices at one point", "why_tests_cant": "triangles refer to vertices of blocks through shared numbers", "anchors": ["src/geode/geosciences_io/model/internal/lso_output.cpp:write_surfaces", "src/geode/geosciences_io/model/internal/lso_input.cpp:read_surfaces"]}
{"id": "C64", "title": "LSO keeps the kind of each collection", "statement": "After saving a model to .lso and loading it, faults are faults, horizons are horizons and model boundaries are model boundaries, with the same names and surfaces.", "quantifier": "every model", "why_tests_cant": "needs one model per kind", "anchors": ["src/geode/geosciences_io/model/internal/lso_output.cpp:write_surfaces", "src/geode/geosciences_io/model/internal/lso_input.cpp:read_surfaces"]}
{"id": "C65", "title": "LSO relations between blocks and surfaces", "statement": "After saving a model to .lso and loading it, a surface is a boundary of a block when the facets of the tetrahedra of the block on the surface are as many as its triangles, and an internal surface when they are twice as many (rounding down); no other relation is created.", "quantifier": "every model with at least one tetrahedron whose blocks have distinct one-word names and whose surfaces have no common triangle", "why_tests_cant": "facets are found through all copies of shared vertices", "anchors": ["src/geode/geosciences_io/model/internal/lso_input.cpp:find_block_relations", "src/geode/geosciences_io/model/internal/lso_input.cpp:build_block_relations", "src/geode/geosciences_io/model/internal/lso_input.cpp:facets_from_vertices"]}
{"id": "C66", "title": "Models that .lso cannot hold are refused with an exception", "statement": "Saving a model to .lso never has undefined behaviour: a model with a vertex outside all blocks, or a block without boundary surface or collection, is refused with an exception.", "quantifier": "every model", "why_tests_cant": "depends on the topology of the model", "anchors": ["src/geode/geosciences_io/model/internal/lso_output.cpp:first_block", "src/geode/geosciences_io/model/internal/lso_output.cpp:write_regions"]}
{"id": "C67", "title": "LSO files that follow the format load", "statement": "Loading a .lso file in which every number refers to a vertex of the file has no undefined behaviour, including solids without tetrahedra and triangles that use the number of a SHAREDVRTX line.", "quantifier": "every file whose numbers refer to its vertices", "why_tests_cant": "saved files never use those numbers", "anchors": ["src/geode/geosciences_io/model/internal/lso_input.cpp:read_triangles", "src/geode/geosciences_io/model/internal/lso_input.cpp:read_tetrahedra"]}
{"id": "C68", "title": "SHP polygons", "statement": "Loading a polygon feature yields the region it describes: the exterior ring as one polygon through its points, and interior rings left out.", "quantifier": "every polygon feature", "why_tests_cant": "holes, unclosed rings and rings of any size", "anchors": ["src/geode/geosciences_io/model/internal/shp_input.cpp:create_surface", "src/geode/geosciences_io/model/internal/shp_input.cpp:read_points"]}
{"id": "C69", "title": "SHP layers are never dropped silently", "statement": "Each layer of a shapefile gives a component of the section, or loading ends with an exception.", "quantifier": "every list of layers", "why_tests_cant": "depends on the geometry kind of each layer", "anchors": ["src/geode/geosciences_io/model/internal/shp_input.cpp:read_file"]}
{"id": "C70", "title": "SHP lines and surfaces have their own unique vertices", "statement": "After loading a shapefile every vertex of every line and surface is associated with one unique vertex, and no two vertices share one.", "quantifier": "every shapefile that loads", "why_tests_cant": "any number of layers and features", "anchors": ["src/geode/geosciences_io/model/internal/shp_input.cpp:create_line", "src/geode/geosciences_io/model/internal/shp_input.cpp:create_surface"]}
{"id": "C71", "title": "SKUA columns are recognised however they are written", "statement": "A file with a local stratigraphic column is declared loadable whatever the indentation and the blank lines of its XML text.", "quantifier": "every layout of the same XML document", "why_tests_cant": "one sample has one layout", "anchors": ["src/geode/geosciences_io/model/internal/horizons_stack_skua_input.cpp:is_loadable"]}
{"id": "C72", "title": "SKUA files without a readable column are refused", "statement": "Loading ends with an exception exactly when the file is not XML or its local stratigraphic column has no readable use_base_names attribute (in particular when there is no column); otherwise it yields a stack.", "quantifier": "every XML document", "why_tests_cant": "each missing node is a separate case", "anchors": ["src/geode/geosciences_io/model/internal/horizons_stack_skua_input.cpp"]}
{"id": "C73", "title": "GEOS cell properties", "statement": "Every requested property that is defined on all blocks is in the exported mesh with, on each cell, the value of the block cell it comes from; a property that is missing on a block or has another number of components is not exported.", "quantifier": "every model and list of requests", "why_tests_cant": "all mixtures of blocks, types and names", "anchors": ["src/geode/geosciences_io/model/internal/geos_export.cpp:transfer_cell_properties", "src/geode/geosciences_io/model/internal/geos_export.cpp:check_property_name"]}
{"id": "C74", "title": "GEOS list of fields", "statement": "fieldsToImport lists exactly the names of the exported properties, so that splitting it at commas gives them back.", "quantifier": "every list of requests", "why_tests_cant": "depends on which of the three lists are empty", "anchors": ["src/geode/geosciences_io/model/internal/geos_export.cpp:write_mesh_files"]}
{"id": "C75", "title": "GEOS well boxes", "statement": "The box exported for a well contains all its perforations.", "quantifier": "every well and mesh", "why_tests_cant": "perforations outside the mesh, ties between cells", "anchors": ["src/geode/geosciences_io/model/internal/geos_export.cpp:write_well_perforations_boxes"]}
{"id": "C76", "title": "BRep FEM export paints conductivities of every surface and line", "statement": "Each facet or edge exported for a surface or line with the conductivity attribute carries the value of one of the surface polygons or line edges it comes from; the other facets and edges carry -1.", "quantifier": "every model, whichever component comes first", "why_tests_cant": "depends on the order of the components and on shared facets", "anchors": ["src/geode/geosciences_io/model/internal/brep_fem_output.cpp:paint_facets_attribute", "src/geode/geosciences_io/model/internal/brep_fem_output.cpp:paint_line_attribute"]}
{"id": "C77", "title": "BRep FEM export names the facets and edges of named surfaces and lines", "statement": "Each facet or edge exported for a named surface or line carries its name.", "quantifier": "every model", "why_tests_cant": "depends on which attributes the component has", "anchors": ["src/geode/geosciences_io/model/internal/brep_fem_output.cpp:paint_facets_attribute", "src/geode/geosciences_io/model/internal/brep_fem_output.cpp:paint_line_attribute"]}
{"id": "C78", "title": "BRep FEM export names the tetrahedra", "statement": "Each tetrahedron exported for a named block carries the name of the block, and No_name when its block has no name.", "quantifier": "every model", "why_tests_cant": "any number of blocks and tetrahedra", "anchors": ["src/geode/geosciences_io/model/internal/brep_fem_output.cpp:paint_polyhedron_block_id_attributes"]}
{"id": "C79", "title": "BRep FEM export lists the blocks of each vertex once", "statement": "Each exported vertex carries the list of the blocks with this vertex, each block once.", "quantifier": "every model", "why_tests_cant": "needs a block with two vertices at one place, as along a fault that ends in it", "anchors": ["src/geode/geosciences_io/model/internal/brep_fem_output.cpp:paint_vertices_block_id_attributes"]}
{"id": "C80", "title": "BRep FEM export copies the attributes of the blocks", "statement": "Each exported tetrahedron carries, for each numeric attribute of its block, the value of the block tetrahedron; it carries no value of another block, and blocks without tetrahedra are accepted.", "quantifier": "every model", "why_tests_cant": "needs blocks with different attributes", "anchors": ["src/geode/geosciences_io/model/internal/brep_fem_output.cpp:copy_tetrahedra_attributes_in_solid"]}
{"id": "C81", "title": "Saved files are recognised", "statement": "The loader of a format reports as loadable every .ts, .vs, .pl, .ml and .lso file that the writer of the same format has saved.", "quantifier": "every mesh and model that is saved without error, whatever its name and content", "why_tests_cant": "any content may come before or after the line looked for", "anchors": ["src/geode/geosciences_io/mesh/ts_input.cpp:is_loadable", "src/geode/geosciences_io/mesh/vs_input.cpp:is_loadable", "src/geode/geosciences_io/mesh/pl_input.cpp:is_loadable", "src/geode/geosciences_io/model/internal/ml_input.cpp:is_loadable", "src/geode/geosciences_io/model/internal/lso_input.cpp:is_loadable"]}
{"id": "C82", "title": "Files that are not recognised are refused", "statement": "A file that the loader reports as not loadable is refused with an exception when it is loaded all the same.", "quantifier": "every file, every text format", "why_tests_cant": "ranges over all texts", "anchors": ["src/geode/geosciences_io/mesh/ts_input.cpp:read_file", "src/geode/geosciences_io/mesh/vs_input.cpp:read_file", "src/geode/geosciences_io/mesh/pl_input.cpp:read_file", "src/geode/geosciences_io/mesh/wl_input.cpp:read_file", "src/geode/geosciences_io/mesh/well_dev_input.cpp:read_file", "src/geode/geosciences_io/mesh/vo_input.cpp:read_file", "src/geode/geosciences_io/mesh/grdecl_input.cpp:read_file", "src/geode/geosciences_io/model/internal/ml_input.cpp:read_file", "src/geode/geosciences_io/model/internal/lso_input.cpp:read_file"]}
{"id": "C83", "title": "Recognised deviation surveys are read wherever their title is", "statement": "A deviation survey reported as loadable is not refused because of the place of its title line.", "quantifier": "every .dev file", "why_tests_cant": "any lines may come before the title", "anchors": ["src/geode/geosciences_io/mesh/well_dev_input.cpp:is_loadable", "src/geode/geosciences_io/mesh/well_dev_input.cpp:read_header"]}
{"id": "C84", "title": "LSO vertex properties stay on their vertices", "statement": "After loading a .lso file, every vertex property of the header is an attribute of every block, and the value of a vertex of a block is made of the words of that property on the line of that vertex in the file.", "quantifier": "every .lso file that loads, with any properties of different names and any positive sizes, shared vertices included", "why_tests_cant": "each block has its own numbering of vertices, and sizes shift the words of the next properties", "anchors": ["src/geode/geosciences_io/model/internal/lso_input.cpp:read_vertices", "src/geode/geosciences_io/model/internal/lso_input.cpp:build_block_mesh", "src/geode/geosciences_io/mesh/gocad_common.cpp:read_properties", "src/geode/geosciences_io/mesh/gocad_common.cpp:create_attributes"]}
{"id": "C85", "title": "Stratigraphic coordinates come from the line of each vertex", "statement": "After loading a stratigraphic model from a .lso file, the stratigraphic coordinates of each vertex of each block are the two values of the geology property and the value of the stratigraphy property on the line of that vertex in the file.", "quantifier": "every .lso file that loads as a stratigraphic model", "why_tests_cant": "any number of blocks, vertices and other properties, in any order", "anchors": ["src/geode/geosciences_io/model/internal/strati_lso_input.cpp:read_file"]}
{"id": "C86", "title": "LSO files without stratigraphic coordinates are refused", "statement": "Loading a stratigraphic model from a .lso file whose vertices lack the geology or stratigraphy property, or have them with other sizes than two and one, raises an exception.", "quantifier": "every .lso file with at least one block that loads as a structural model", "why_tests_cant": "ranges over all property headers", "anchors": ["src/geode/geosciences_io/model/internal/strati_lso_input.cpp:read_file"]}
{"id": "C87", "title": "LSO files recognised as stratigraphic can be loaded", "statement": "A .lso file reported as loadable as a stratigraphic model, and that loads as a structural model, has the two properties and is loaded.", "quantifier": "every .lso file", "why_tests_cant": "depends on the names in the header", "anchors": ["src/geode/geosciences_io/model/internal/strati_lso_input.cpp:is_loadable", "src/geode/geosciences_io/model/internal/strati_lso_input.cpp:read_file"]}
{"id": "C88", "title": "Building the lines of LSO models ends", "statement": "While it builds corners and lines, loading a .lso file always ends, with a model or with an exception.", "quantifier": "every set of surfaces whose border edges form closed loops", "why_tests_cant": "the loop over the border ends only if it meets a corner again", "anchors": ["src/geode/geosciences_io/model/internal/lso_input.cpp:build_lines", "src/geode/geosciences_io/model/internal/lso_input.cpp:build_line"]}
{"id": "C89", "title": "LSO lines run from corner to corner along the borders", "statement": "Every line of a model loaded from a .lso file has at least two vertices, starts and ends at corners, has no corner inside, and each of its edges is a border edge of a surface.", "quantifier": "every set of surfaces", "why_tests_cant": "any number of surfaces meeting in any way", "anchors": ["src/geode/geosciences_io/model/internal/lso_input.cpp:build_lines", "src/geode/geosciences_io/model/internal/lso_input.cpp:build_line"]}
{"id": "C90", "title": "Borders of LSO surfaces are covered by lines", "statement": "Every border edge of every surface of a model loaded from a .lso file is an edge of a line of the model.", "quantifier": "every set of surfaces", "why_tests_cant": "any number of border loops", "anchors": ["src/geode/geosciences_io/model/internal/lso_input.cpp:build_lines", "src/geode/geosciences_io/model/internal/lso_input.cpp:build_line", "src/geode/geosciences_io/model/internal/lso_input.cpp:common_line"]}
{"id": "C91", "title": "LSO lines do not share edges", "statement": "In a model loaded from a .lso file no edge belongs to two lines.", "quantifier": "every set of surfaces", "why_tests_cant": "depends on the order in which the borders are visited", "anchors": ["src/geode/geosciences_io/model/internal/lso_input.cpp:common_line", "src/geode/geosciences_io/model/internal/lso_input.cpp:build_line"]}
{"id": "C92", "title": "LSO lines are boundaries of the surfaces their borders pass along", "statement": "In a model loaded from a .lso file a line is a boundary of the surfaces whose border passes along it once, internal to those whose border passes along it twice, and of no other; each border edge that starts at a corner counts as one passage along the line it lies on.", "quantifier": "every set of surfaces and every model loaded without exception", "why_tests_cant": "any number of surfaces share a line", "anchors": ["src/geode/geosciences_io/model/internal/lso_input.cpp:build_line_relations", "src/geode/geosciences_io/model/internal/lso_input.cpp:build_lines"]}
{"id": "C93", "title": "LSO lines with the surface on both sides are internal", "statement": "A line whose edges are passed in both directions by the border of a surface is internal to that surface.", "quantifier": "every set of surfaces", "why_tests_cant": "depends on the place of the corners along the slit", "anchors": ["src/geode/geosciences_io/model/internal/lso_input.cpp:build_line_relations", "src/geode/geosciences_io/model/internal/lso_input.cpp:build_corner_from_edge"]}
{"id": "C94", "title": "LSO corners stand where the surfaces change", "statement": "When the two ends of a border edge do not touch the same surfaces, one of them is a corner.", "quantifier": "every set of surfaces and every border edge, in either direction", "why_tests_cant": "ranges over all contacts of surfaces", "anchors": ["src/geode/geosciences_io/model/internal/lso_input.cpp:build_corner_from_edge", "src/geode/geosciences_io/model/internal/lso_input.cpp:are_equal"]}
{"id": "C95", "title": "LSO corners stand only where the surfaces change", "statement": "Every corner is at an end of a border edge whose two ends do not have the same vertices of surfaces, and there is at most one corner at a vertex.", "quantifier": "every set of surfaces", "why_tests_cant": "ranges over all contacts of surfaces", "anchors": ["src/geode/geosciences_io/model/internal/lso_input.cpp:build_corner_from_edge", "src/geode/geosciences_io/model/internal/lso_input.cpp:create_corner"]}
{"id": "C96", "title": "Lines that lie on an LSO surface are related to it", "statement": "After loading a .lso file, every line whose first edge is an edge of a surface is a boundary of that surface or internal to it, and relations already there are kept.", "quantifier": "every set of lines and surfaces", "why_tests_cant": "any line may cross any surface", "anchors": ["src/geode/geosciences_io/model/internal/lso_input.cpp:split_on_internal_lines"]}
{"id": "C97", "title": "ML line starts cover the borders", "statement": "A saved .ml file has a BORDER and BSTONE line for each corner of each border loop of each surface, and no other.", "quantifier": "every surface, with any number of border loops and corners", "why_tests_cant": "any number of loops; the writer follows one of them", "anchors": ["include/geode/geosciences_io/model/internal/ml_output_impl.hpp:add_corners_and_line_starts", "include/geode/geosciences_io/model/internal/ml_output_impl.hpp:process_surface_edge"]}
{"id": "C98", "title": "ML lines run along the border to the next corner", "statement": "Loading a line of a .ml file ends; the line starts at its corner, goes along the border of the surface and stops at the next corner. A start that is not a border edge is reported.", "quantifier": "every surface, every set of corners and every line start at a corner", "why_tests_cant": "any length of the border; the loop ends only at a corner", "anchors": ["src/geode/geosciences_io/model/internal/ml_input.cpp:compute_line"]}
{"id": "C99", "title": "The border of a surface survives ML save and load", "statement": "After saving and loading a surface whose border is one loop with at least one corner, every border edge is on a line of the model.", "quantifier": "every such surface and set of corners", "why_tests_cant": "ranges over all borders", "anchors": ["include/geode/geosciences_io/model/internal/ml_output_impl.hpp:add_corners_and_line_starts", "src/geode/geosciences_io/model/internal/ml_input.cpp:compute_line"]}
{"id": "C100", "title": "A line shared by ML surfaces is made once", "statement": "No two lines of a model loaded from a .ml file have the same corners and points, in either direction.", "quantifier": "every list of line starts over any surfaces", "why_tests_cant": "any number of surfaces share a line, in either direction", "anchors": ["src/geode/geosciences_io/model/internal/ml_input.cpp:find_or_create_line", "src/geode/geosciences_io/model/internal/ml_input.cpp:create_lines"]}
{"id": "C101", "title": "Surface vertices are tied to the line vertices at their place", "statement": "In a model loaded from a .ml file the vertices of a surface tied to a line are, one to one and in order, at the points of the line, and the corners of the line are those of its end vertices, whichever way the surface runs along it.", "quantifier": "every list of line starts over any surfaces", "why_tests_cant": "the line may have been made from another surface, in the other direction", "anchors": ["src/geode/geosciences_io/model/internal/ml_input.cpp:find_or_create_line", "src/geode/geosciences_io/model/internal/ml_input.cpp:create_lines"]}
{"id": "C102", "title": "ML lines are boundaries or internal to surfaces as often as met", "statement": "In a model loaded from a .ml file a line met by one line start of a surface is a boundary of it, a line met by two is internal to it, and other lines are not related to it through line starts.", "quantifier": "every list of lines of a surface, none met more than twice", "why_tests_cant": "any number of lines, in any order of identifiers", "anchors": ["src/geode/geosciences_io/model/internal/ml_input.cpp:create_line_surface_relationships"]}
{"id": "C103", "title": "Every vertex of an ML surface has a unique vertex", "statement": "After loading a .ml file every surface vertex has a unique vertex: the one given by corners and lines, else the only one at its place, else a new one of its own. Several at its place are reported, and nothing else is.", "quantifier": "every surface, all unique vertices already made", "why_tests_cant": "ranges over all sets of vertices and lines", "anchors": ["src/geode/geosciences_io/model/internal/ml_input.cpp:create_missing_line_surface_relationships"]}
{"id": "C104", "title": "Lines inside ML surfaces become internal", "statement": "A line that the line starts of a surface do not give is made internal to the surface exactly when all its vertices are on the surface and one of them had to be found by its place; a boundary line of the surface is not made internal.", "quantifier": "every surface and set of lines", "why_tests_cant": "depends on the order of the vertices: the line is complete only after its last vertex is found", "anchors": ["src/geode/geosciences_io/model/internal/ml_input.cpp:create_missing_line_surface_relationships", "src/geode/geosciences_io/model/internal/ml_input.cpp:should_line_be_internal"]}
{"id": "C105", "title": "Sections of included GRDECL files are read", "statement": "When a corner point grid file includes the file of a section, the section is read from that file, whatever its name; a section that no included file holds is read from the main file; an included file that is missing is an error.", "quantifier": "every main file, every list of inclusions, every name", "why_tests_cant": "the section of an included file is guessed from its name", "anchors": ["src/geode/geosciences_io/mesh/grdecl_input.cpp:get_filenames_and_keywords", "src/geode/geosciences_io/mesh/grdecl_input.cpp:read_pillars_with_file", "src/geode/geosciences_io/mesh/grdecl_input.cpp:read_depths_with_file"]}
{"id": "C106", "title": "GOCAD properties with several components are read in order", "statement": "After loading a TSurf or VSet file each vertex has, for each property, as many values as the property has components: those of its own line, after those of the properties before it.", "quantifier": "every object alone in its file, with distinct property names and any positive numbers of components, every list of vertex lines", "why_tests_cant": "the place of a value on a line depends on the numbers of components of all the properties before", "anchors": ["src/geode/geosciences_io/mesh/gocad_common.cpp:read_properties", "src/geode/geosciences_io/mesh/gocad_common.cpp:create_attributes", "src/geode/geosciences_io/mesh/gocad_common.cpp:read_tfaces", "src/geode/geosciences_io/mesh/gocad_common.cpp:read_VSet_vertices"]}
{"id": "C107", "title": "FEM coordinates list every node under its coordinate", "statement": "For each axis the FEFLOW export writes one line per distinct coordinate, in increasing order, and each node is listed exactly once, on the line of its own coordinate.", "quantifier": "every list of nodes whose coordinates are numbers, every total order of coordinates", "why_tests_cant": "the nodes are grouped by a hash map and the groups sorted afterwards", "anchors": ["src/geode/geosciences_io/mesh/fem_output.cpp:create_coord_dist", "src/geode/geosciences_io/mesh/fem_output.cpp:write_one_coord_component_dist"]}
{"id": "C108", "title": "FEM discrete features are well-formed XML with right counts", "statement": "The discrete features section is one XML element whose tags are closed in order, and every count attribute is the number of what the element holds.", "quantifier": "every mesh with tagged facets or edges, every numbers of features and of groups, every values", "why_tests_cant": "tags are written by hand over several functions and optional groups", "anchors": ["src/geode/geosciences_io/mesh/fem_output.cpp:write_discrete_features", "src/geode/geosciences_io/mesh/fem_output.cpp:write_discrete_feature_groups", "src/geode/geosciences_io/mesh/fem_output.cpp:write_material_property"]}
{"id": "C109", "title": "FEM files hold each section once and in order", "statement": "In a FEFLOW file written by the library the keyword lines are those of the sections of the mesh, once each, in the order of the format, END being the last; the line after DIMENS announces the numbers of nodes and of elements.", "quantifier": "every mesh, with or without attributes, block names and discrete features", "why_tests_cant": "user-given names become lines of the file and can be those of keywords", "anchors": ["src/geode/geosciences_io/mesh/fem_output.cpp:write_file", "src/geode/geosciences_io/mesh/fem_output.cpp:write_dimension", "src/geode/geosciences_io/mesh/fem_output.cpp:write_property"]}
{"id": "C110", "title": "A corner point grid has the dimensions of its SPECGRID section", "statement": "The numbers of cells of a loaded corner point grid are the three numbers of the first SPECGRID section of the file, whatever comments, blanks and other lines surround them.", "quantifier": "every three numbers, every lines before and after the section, every spacing", "why_tests_cant": "comments and spacing are those of other software", "anchors": ["src/geode/geosciences_io/mesh/grdecl_input.cpp:read_dimensions"]}
{"id": "C111", "title": "LSO shared vertices are the vertices they refer to", "statement": "A vertex line of a LightSolid file that refers to a vertex of a line before it is loaded at the point of that vertex and is the same vertex of the model; vertices of lines that are not shared are different.", "quantifier": "every list of new and shared vertices, in any order", "why_tests_cant": "files of other software mix new and shared vertices, the writer of the library puts the shared ones last", "anchors": ["src/geode/geosciences_io/model/internal/lso_input.cpp:read_vertices", "src/geode/geosciences_io/model/internal/lso_input.cpp:read_tetrahedra"]}
{"id": "C112", "title": "LSO regions give one block each", "statement": "Every MODEL_REGION line of a LightSolid file gives one block, in order, with the name of the line and exactly the tetrahedra of the solid that have this name.", "quantifier": "every solid, every lines", "why_tests_cant": "lines of other kinds lie between the regions only in files of other software", "anchors": ["src/geode/geosciences_io/model/internal/lso_input.cpp:read_blocks"]}
{"id": "C113", "title": "LSO lines between the solid and its model are ignored", "statement": "Whatever lines lie between the tetrahedra and the MODEL line of a LightSolid file, the surfaces read are the same; without a MODEL line the file is refused.", "quantifier": "every solid, every lines that do not begin with MODEL", "why_tests_cant": "the current line is carried from one reading function to the next", "anchors": ["src/geode/geosciences_io/model/internal/lso_input.cpp:read_surfaces"]}
{"id": "C114", "title": "GOCAD files describe each property class they announce", "statement": "Each class announced in PROPERTY_CLASSES by the writers, and each coordinate, has a section PROPERTY_CLASS_HEADER of its name, with its kind, unit and name; the third coordinate is marked as a depth.", "quantifier": "every list of property names that the property header keeps", "why_tests_cant": "the names are quoted in one place and not in the other", "anchors": ["src/geode/geosciences_io/mesh/gocad_common.cpp:write_property_class_header", "src/geode/geosciences_io/mesh/ts_output.cpp:write_prop_header", "src/geode/geosciences_io/mesh/ts_output.cpp:write_xyz_prop_class_header"]}
{"id": "C115", "title": "ML lists have five numbers on each line", "statement": "In the files saved for a model, the lists of the universe, of the regions, of the layers and of the fault blocks have their numbers in order, five on each line, and end with a line of fewer than five numbers and 0.", "quantifier": "every model, every numbers of surfaces and blocks", "why_tests_cant": "the line break depends on a counter over two loops; the case of a multiple of five is special", "anchors": ["include/geode/geosciences_io/model/internal/ml_output_impl.hpp:write_universe", "include/geode/geosciences_io/model/internal/ml_output_impl.hpp:write_regions", "src/geode/geosciences_io/model/internal/ml_output_structural_model.cpp:write_geological_regions"]}
{"id": "C116", "title": "ML lines with missing words are reported", "statement": "A line of the component section of a structural model file that lacks words that its keyword needs, or is blank, is reported by an exception and not undefined behaviour.", "quantifier": "every line, at every place of the section outside of the lists", "why_tests_cant": "reading past the end of a list of words is seen by no assertion in release builds", "anchors": ["src/geode/geosciences_io/model/internal/ml_input.cpp:read_model_components", "src/geode/geosciences_io/model/internal/ml_input.cpp:process_TFACE_keyword", "src/geode/geosciences_io/model/internal/ml_input.cpp:process_REGION_keyword"]}
{"id": "C117", "title": "ML corners and line starts are kept by save and load", "statement": "Saving a structural model to a .ml file and loading it, the corner records (BSTONE) and line starts (BORDER) read on each surface are exactly those of the surface: the same vertices of its mesh and, for the corners, the points of these vertices as printed.", "quantifier": "every model that can be loaded again (each surface in one collection, distinct names that can be written, no unconformity among the horizons), with any numbers of vertices and line starts", "why_tests_cant": "the numbers are relative to the TSurf, whose faces are those of several surfaces; an offset wrong by one is seen only at the border of two faces", "anchors": ["src/geode/geosciences_io/model/internal/ml_input.cpp:build_corners", "src/geode/geosciences_io/model/internal/ml_input.cpp:compute_line_starts", "include/geode/geosciences_io/mesh/internal/gocad_common.hpp:tface_id", "include/geode/geosciences_io/model/internal/ml_output_impl.hpp:write_model_surfaces"]}
{"id": "C118", "title": "ML corners lie on their surfaces", "statement": "In every .ml file that is loaded, each corner record gives a corner to one vertex of one surface of the model: the surface whose face holds the vertex, at the point of this vertex. Records of vertices at equal points give one corner, and no other vertex is given a corner.", "quantifier": "every file that is loaded, every search of colocated points that gives equal points one point near them", "why_tests_cant": "files of other software order faces and vertices differently; a later record overrides an earlier one", "anchors": ["src/geode/geosciences_io/model/internal/ml_input.cpp:build_corners", "include/geode/geosciences_io/mesh/internal/gocad_common.hpp:tface_id", "src/geode/geosciences_io/model/internal/ml_input.cpp:process_TFACE_keyword"]}
{"id": "C119", "title": "ML corner and line start records are checked", "statement": "The corner records and line starts of a .ml file that is loaded name vertices of one surface; a file in which one does not is rejected.", "quantifier": "every file", "why_tests_cant": "out of bounds reads are seen by no assertion in release builds; a number of another face gives a wrapped number", "anchors": ["src/geode/geosciences_io/model/internal/ml_input.cpp:build_corners", "src/geode/geosciences_io/model/internal/ml_input.cpp:compute_line_starts"]}
{"id": "C120", "title": "Every reader and writer is used for the files of its extensions", "statement": "After the initialisation of the library every reader and writer class of the library is the one found by its factory for each of its extensions, no extension is registered twice in a factory, and a class found for an extension is of the kind asked for.", "quantifier": "every reader and writer class, every kind of object, every extension", "why_tests_cant": "a class that is compiled but never registered, or registered after another one of the same key, is dead code that no test of the other formats reaches", "anchors": ["src/geode/geosciences_io/mesh/common.cpp:register_edged_curve_input", "src/geode/geosciences_io/model/common.cpp:register_structural_model_input", "include/geode/geosciences_io/model/internal/strati_lso_input.hpp:extension"]}
{"id": "C121", "title": "Formats written can be read as the same kind of object", "statement": "For every kind of object and every extension the library can write, the library can read a file of that extension as an object of that kind.", "quantifier": "every kind of object, every extension", "why_tests_cant": "the readers and the writers are registered apart, in different functions", "anchors": ["src/geode/geosciences_io/mesh/common.cpp:register_tetrahedral_solid_output", "src/geode/geosciences_io/model/common.cpp:register_brep_output"]}
{"id": "C122", "title": "Loading an image leaves the log level unchanged", "statement": "After loading a georeferenced image as a grid or as a surface, with success or not, the level of the log is the one it had before.", "quantifier": "every image file, every level", "why_tests_cant": "the level is restored on the normal path only; a test that loads good images never sees it", "anchors": ["src/geode/geosciences_io/mesh/geotiff_input.cpp:read", "src/geode/geosciences_io/mesh/polytiff_input.cpp:read"]}
{"id": "C123", "title": "Image files recognised are loaded", "statement": "A DEM, GeoTIFF or PolyTIFF file that the library says it can load is loaded.", "quantifier": "every image, under the promises of the image libraries", "why_tests_cant": "recognition and reading open the file by different functions with different tests", "anchors": ["src/geode/geosciences_io/mesh/dem_input.cpp:is_loadable", "src/geode/geosciences_io/mesh/geotiff_input.cpp:is_loadable", "src/geode/geosciences_io/mesh/polytiff_input.cpp:is_loadable", "src/geode/geosciences_io/mesh/dem_input.cpp:read", "src/geode/geosciences_io/mesh/polytiff_input.cpp:read"]}
{"id": "C124", "title": "Names taken from paths are those of the files", "statement": "A well read from a file b.e of any directory is named b, the index file looked for beside a shape file b.shp is b.shx of the same directory, and a data file named in a Voxet or GRDECL file is the one of that name in the directory of the file.", "quantifier": "every path, every name", "why_tests_cant": "names with dots, directories with dots and names given from the root are seldom tried", "anchors": ["include/geode/geosciences_io/mesh/internal/well_input.hpp:read_file", "src/geode/geosciences_io/model/internal/shp_input.cpp:is_loadable", "src/geode/geosciences_io/mesh/vo_input.cpp:read_file", "src/geode/geosciences_io/mesh/grdecl_input.cpp:read_file"]}
{"id": "C125", "title": "FEM saving creates the directories of its file", "statement": "Saving a FEFLOW file in a directory that does not exist creates the directory.", "quantifier": "every path, every set of existing directories", "why_tests_cant": "tests save in the current directory", "anchors": ["src/geode/geosciences_io/mesh/fem_output.cpp:write", "src/geode/geosciences_io/model/internal/brep_fem_output.cpp:write"]}
{"id": "C126", "title": "GEOS export files are distinct, named and placed as the document says", "statement": "The GEOS export writes one mesh file, one file for each well and one document, all different and all in the directory of the export; the document names the mesh file and its fields and has one box for each well, numbered as the file of the well; the files are named after the directory.", "quantifier": "every directory, every number of wells, every attributes", "why_tests_cant": "names are built in five functions from a prefix taken from the directory; dots and ending separators change it", "anchors": ["src/geode/geosciences_io/model/internal/geos_export.cpp:write_mesh_files", "src/geode/geosciences_io/model/internal/geos_export.cpp:write_solid_file", "src/geode/geosciences_io/model/internal/geos_export.cpp:write_well_perforation_file", "src/geode/geosciences_io/model/internal/geos_export.cpp:prefix"]}
{"id": "C127", "title": "GEOS boxes as written hold the perforations of their well", "statement": "The box of a well read back from the text of the GEOS document contains every perforation of the well that is in the mesh.", "quantifier": "every mesh, every well, every printing of numbers", "why_tests_cant": "the safety offset is added before the coordinates are printed with a fixed number of digits", "anchors": ["src/geode/geosciences_io/model/internal/geos_export.cpp:write_well_perforations_boxes", "src/geode/geosciences_io/model/internal/geos_export.cpp:write_mesh_files"]}
{"id": "C128", "title": "LSO models reported as saveable are saved", "statement": "A structural model that the .lso writer reports as saveable is saved without an exception or undefined behaviour.", "quantifier": "every structural model, every sides of its surfaces", "why_tests_cant": "the check looks at mesh types only; the writer looks up surfaces in collections, vertices in blocks and sides in maps", "anchors": ["src/geode/geosciences_io/model/internal/lso_output.cpp:is_saveable", "src/geode/geosciences_io/model/internal/lso_output.cpp:write_file"]}
{"id": "C129", "title": "ML models reported as saveable are saved", "statement": "A model that the .ml writers report as saveable is saved without an exception or undefined behaviour, and a model with a polygon that is not a triangle is refused.", "quantifier": "every boundary representation or structural model, every sides of its surfaces", "why_tests_cant": "the check looks at the sizes of polygons only; the writer looks up numbers of surfaces and blocks, names, contact types and first triangles", "anchors": ["src/geode/geosciences_io/model/internal/ml_output_brep.cpp:is_saveable", "src/geode/geosciences_io/model/internal/ml_output_structural_model.cpp:is_saveable", "include/geode/geosciences_io/model/internal/ml_output_impl.hpp:check_brep_polygons", "include/geode/geosciences_io/model/internal/ml_output_impl.hpp:write_file"]}
{"id": "C130", "title": "Truncated LSO files are reported", "statement": "A .lso file cut after any of its lines, with or without the line feed of that line, is refused with an exception.", "quantifier": "every model that can be saved and loaded, every line of its file, with and without the last line feed", "why_tests_cant": "a cut file often loads, with fewer blocks and surfaces; the loops test the last string read and not the stream", "anchors": ["src/geode/geosciences_io/model/internal/lso_input.cpp:read_vertices", "src/geode/geosciences_io/model/internal/lso_input.cpp:read_tetrahedra", "src/geode/geosciences_io/model/internal/lso_input.cpp:read_surfaces", "src/geode/geosciences_io/model/internal/lso_input.cpp:read_blocks"]}
{"id": "C131", "title": "Reading an LSO file ends", "statement": "The .lso reader ends on every text, whether or not its last line has a line feed.", "quantifier": "every text, with and without the last line feed", "why_tests_cant": "editors end files with a line feed, and then the loops see an empty string at the end", "anchors": ["src/geode/geosciences_io/model/internal/lso_input.cpp:read_surfaces", "src/geode/geosciences_io/model/internal/lso_input.cpp:read_tfaces", "src/geode/geosciences_io/model/internal/lso_input.cpp:read_blocks"]}
{"id": "C132", "title": "The last line feed of GRDECL and Voxet data files does not matter", "statement": "A corner point grid, with the files it includes, or a Voxet data file gives the same result whether or not the last lines have a line feed.", "quantifier": "every file, every set of included files", "why_tests_cant": "std::getline leaves the last line in the string at the end of a file without line feed, and the loops read it again", "anchors": ["src/geode/geosciences_io/mesh/grdecl_input.cpp:get_filenames_and_keywords", "src/geode/geosciences_io/mesh/grdecl_input.cpp:read_pillars_from_file", "src/geode/geosciences_io/mesh/grdecl_input.cpp:read_depths_from_file", "src/geode/geosciences_io/mesh/vo_input.cpp:read_data_file"]}
{"id": "C133", "title": "Vertices and borders of ML surfaces have consecutive numbers", "statement": "In every TSurf of a .ml file the VRTX and BORDER records have the numbers 1, 2, 3, ... in the order of the file, and the TRGL, BSTONE and BORDER records name vertices of the same TSurf.", "quantifier": "every list of surfaces, every line starts", "why_tests_cant": "the numbers come from offsets that are added up over the surfaces; the reader of this library does not look at the number of a border", "anchors": ["include/geode/geosciences_io/model/internal/ml_output_impl.hpp:write_surface", "include/geode/geosciences_io/model/internal/ml_output_impl.hpp:write_line_starts", "include/geode/geosciences_io/model/internal/ml_output_impl.hpp:write_model_surfaces"]}
{"id": "C134", "title": "Reading GOCAD objects ends", "statement": "Loading a .ts, .pl or .vs file ends, with an object, an error or undefined behaviour, whatever the text of the file.", "quantifier": "every text", "why_tests_cant": "an endless loop needs one particular text, and a test can only wait for it", "anchors": ["src/geode/geosciences_io/mesh/pl_input.cpp:read_file", "src/geode/geosciences_io/mesh/ts_input.cpp:read_file", "src/geode/geosciences_io/mesh/vs_input.cpp:read_file", "src/geode/geosciences_io/mesh/gocad_common.cpp:read_ecurve"]}
{"id": "C135", "title": "Vertices of a loaded ML model share a unique vertex only at one place", "statement": "After loading a .ml file every vertex of every surface has a unique vertex: the one of the corner recorded at the vertex, the one of a vertex of a line at the same place, or, when no line has a vertex there, one that no other vertex has. The ends of the lines have the unique vertices of their corners and the other vertices of the lines have one each.", "quantifier": "every set of surfaces, borders, corners and line starts", "why_tests_cant": "the unique vertices come from three passes over corners, lines and surfaces, each one numbering from where the one before stopped", "anchors": ["src/geode/geosciences_io/model/internal/ml_input.cpp:create_line_topology", "src/geode/geosciences_io/model/internal/ml_input.cpp:register_line_surface_vertex_identifier", "src/geode/geosciences_io/model/internal/ml_input.cpp:create_missing_line_surface_relationships"]}
{"id": "C136", "title": "Corners of a loaded ML model end lines", "statement": "Every corner of a model loaded from a .ml file is the end of a line; a file with a corner that ends no line is refused.", "quantifier": "every set of surfaces, borders, corners and line starts", "why_tests_cant": "a test has one file with a lone corner, at one place of the numbering", "anchors": ["src/geode/geosciences_io/model/internal/ml_input.cpp:create_unique_vertices_search", "src/geode/geosciences_io/model/internal/ml_input.cpp:build_lines"]}
{"id": "C137", "title": "The vertices along all the lines of an ML surface are tied to the lines", "statement": "When the lines of a surface are related to it, each vertex of the surface along each of them is given the unique vertex of the vertex of the line.", "quantifier": "every list of lines of a surface", "why_tests_cant": "the loop looks at sorted lines two by two and jumps over one when they are the same", "anchors": ["src/geode/geosciences_io/model/internal/ml_input.cpp:create_line_surface_relationships"]}
{"id": "C138", "title": "When a loaded .lso model has to be inspected", "statement": "Whatever the .lso file, the loaded model is said to need an inspection exactly when a triangle of a surface is not a facet of a tetrahedron, or when the tetrahedra of a block have facets of a surface but not as many as once or twice its triangles (rounding down). Surfaces are boundaries of the blocks that have them once and internal to those that have them twice. A conformal model that is saved and loaded again needs no inspection.", "quantifier": "every .lso file that loads", "why_tests_cant": "the facets are found through the copies of the vertices and a later surface takes them from an earlier one; tests have a few conformal models", "anchors": ["src/geode/geosciences_io/model/internal/lso_input.cpp:read_triangles", "src/geode/geosciences_io/model/internal/lso_input.cpp:find_block_relations", "src/geode/geosciences_io/model/internal/lso_input.cpp:build_block_relations", "src/geode/geosciences_io/model/internal/lso_input.cpp:read_blocks"]}
{"id": "C139", "title": "Meshes are saved in FEFLOW files", "statement": "Every tetrahedral mesh is saved as a .fem file without an exception or undefined behaviour, unless the apertures or the conduit areas are all negative, which is an exception.", "quantifier": "every tetrahedral mesh, with any attributes", "why_tests_cant": "the elements after the last node and the names of blocks are read from memory that is usually still there; tests have one or two meshes", "anchors": ["src/geode/geosciences_io/mesh/fem_output.cpp:write_file", "src/geode/geosciences_io/mesh/fem_output.cpp:create_attribute_distribution", "src/geode/geosciences_io/mesh/fem_output.cpp:create_region_map", "src/geode/geosciences_io/mesh/fem_output.cpp:build_discrete_features"]}
{"id": "C140", "title": "Boundary representations reported as saveable are saved in FEFLOW files", "statement": "A boundary representation that the .fem writer reports as saveable is saved without an exception or undefined behaviour.", "quantifier": "every boundary representation and every conversion into a solid", "why_tests_cant": "the views of destroyed strings often still read the right names; tests have tetrahedral models whose blocks all have polyhedra", "anchors": ["src/geode/geosciences_io/model/internal/brep_fem_output.cpp:write_file", "src/geode/geosciences_io/model/internal/brep_fem_output.cpp:is_saveable", "src/geode/geosciences_io/mesh/fem_output.cpp:create_region_map"]}
{"id": "C141", "title": "What is loaded depends on the listed files only", "statement": "Two disks with the same contents in a file and in the files that its reader lists as additional give the same result when the file is loaded.", "quantifier": "every file and every two disks", "why_tests_cant": "tests load files beside their companions from one folder; a comparison of two disks is a property of pairs of runs", "anchors": ["src/geode/geosciences_io/mesh/grdecl_input.cpp:get_filenames_and_keywords", "src/geode/geosciences_io/mesh/grdecl_input.cpp:read_pillars_with_file", "src/geode/geosciences_io/mesh/vo_input.cpp:additional_files", "src/geode/geosciences_io/mesh/vo_input.cpp:read_data_file"]}
{"id": "C142", "title": "Cut .ml files give the same model or none", "statement": "The first lines of a .ml file that can be loaded give the same model, or no model; those of a saved file that is not complete give no model.", "quantifier": "every file that can be loaded or was saved, cut after any line", "why_tests_cant": "tests load complete files; a file cut between two meshes looks complete, and there are as many places to cut as lines", "anchors": ["src/geode/geosciences_io/model/internal/ml_input.cpp:read_file", "src/geode/geosciences_io/model/internal/ml_input.cpp:read_model_components", "src/geode/geosciences_io/mesh/gocad_common.cpp:read_tsurf"]}
{"id": "C143", "title": "LSO models have to be inspected exactly when they do not conform", "statement": "A model loaded from a .lso file is said to have to be inspected exactly when a triangle of a surface is not a facet of the solid, a block has the triangles of a surface neither once nor twice, or a line runs along an edge of a surface without being on its border; these lines are exactly those made internal to the surface.", "quantifier": "every file whose blocks and surfaces are read, and all surface borders a mesh library can give", "why_tests_cant": "tests load conformal models; the flag gathers three searches made on parts built one from another, and a missed case gives a silent bad model", "anchors": ["src/geode/geosciences_io/model/internal/lso_input.cpp:read_file", "src/geode/geosciences_io/model/internal/lso_input.cpp:split_on_internal_lines", "src/geode/geosciences_io/model/internal/lso_input.cpp:build_block_relations"]}
{"id": "C144", "title": "Vertices of models read from ML files are joined by corners and lines only", "statement": "Every vertex of every surface of a model loaded from a .ml file has a unique vertex: that of a corner near it, that of a line vertex at its place, or one of its own; two vertices have the same one only when each is near a corner or on a line. Every corner ends a line.", "quantifier": "every file, every merging of points and every surface borders a mesh library can give", "why_tests_cant": "tests count the components of a few models; the unique vertices come from four passes over the surfaces, and a wrong join is silent", "anchors": ["src/geode/geosciences_io/model/internal/ml_input.cpp:read_file", "src/geode/geosciences_io/model/internal/ml_input.cpp:build_corners", "src/geode/geosciences_io/model/internal/ml_input.cpp:build_lines"]}
{"id": "C145", "title": "Borders of surfaces saved in ML files are on lines once loaded", "statement": "A model whose surfaces meet along their borders only, at corners and lines, is saved in a .ml file and loaded again without fail; once loaded, the ends of every border edge of every surface are next to each other on a line.", "quantifier": "all models with names and meshes the format keeps, all surface borders that are one loop", "why_tests_cant": "tests save a few models and count components; which vertices the lines reach depends on the corners, on the order of the line starts and on the comparison of points", "anchors": ["src/geode/geosciences_io/model/internal/ml_output_impl.hpp:write_file", "src/geode/geosciences_io/model/internal/ml_input.cpp:read_file", "src/geode/geosciences_io/model/internal/ml_input.cpp:build_lines"]}
{"id": "C146", "title": "Region indicators of LSO files do not change the model", "statement": "A model loaded from a .lso file does not depend on the section of region indicators after the vertices, nor on the one after the tetrahedra: either may be changed, added or removed. A file where such a section is opened and never closed is refused.", "quantifier": "every file that is loaded, every section", "why_tests_cant": "tests read files with a few indicators, or none; a section may hold any lines, such as ones that look like tetrahedra or open the model", "anchors": ["src/geode/geosciences_io/model/internal/lso_input.cpp:read_vertex_region_indicators", "src/geode/geosciences_io/model/internal/lso_input.cpp:read_tetrahedra_region_indicators"]}
{"id": "C147", "title": "Names of GOCAD objects come from the line with the key name", "statement": "The name of an object is the one on the header line whose key is `name`; a header without such a line gives no name; a header that is not closed is refused.", "quantifier": "every file", "why_tests_cant": "tests read headers written by one program; which line gives the name depends on all the other keys of the header", "anchors": ["src/geode/geosciences_io/mesh/gocad_common.cpp:read_header"]}
{"id": "C148", "title": "Coordinate systems of GOCAD files are read and kept", "statement": "Name, projection, datum and direction of the third axis are those of the last lines of the section that give them, and default otherwise; a coordinate system that is written is read back.", "quantifier": "every file; all coordinate systems with readable names", "why_tests_cant": "tests use the default system and one other; sections may repeat keys, omit them, or have other lines in any order", "anchors": ["src/geode/geosciences_io/mesh/gocad_common.cpp:read_CRS", "src/geode/geosciences_io/mesh/gocad_common.cpp:write_CRS"]}
{"id": "C149", "title": "Voxets are loaded with the grid of their axes", "statement": "The grid has the origin and the numbers of cells given by the AXIS_O and AXIS_N lines; the axes are vectors placed at the origin, and the length of a cell is the length of its axis over the number of cells; files without these lines are refused.", "quantifier": "every file, every origin and axes", "why_tests_cant": "the test file starts at the origin, where points and vectors have the same coordinates, and has its lines in one order", "anchors": ["src/geode/geosciences_io/mesh/vo_input.cpp:initialize_grid", "src/geode/geosciences_io/mesh/vo_input.cpp:read_grid_size", "src/geode/geosciences_io/mesh/vo_input.cpp:read_cells_number", "src/geode/geosciences_io/mesh/vo_input.cpp:compute_cells_length", "src/geode/geosciences_io/mesh/vo_input.cpp:read_coord"]}
{"id": "C150", "title": "Depths of voxets become elevations", "statement": "When the coordinate system of a voxet has its third axis downwards, the third coordinate of the origin of the loaded grid is the opposite of the one in the file, as for surfaces, lines, points and wells.", "quantifier": "every file with a coordinate system", "why_tests_cant": "the test file is in elevations", "anchors": ["src/geode/geosciences_io/mesh/vo_input.cpp:read_file", "src/geode/geosciences_io/mesh/vo_input.cpp:initialize_grid"]}
{"id": "C151", "title": "Saving again a GOCAD mesh that was loaded gives the same file", "statement": "A mesh that is saved, loaded and saved again gives the same file when its properties are listed in the same order; loading the second file gives the same mesh whatever their order.", "quantifier": "all surfaces, point sets and curves", "why_tests_cant": "tests make one round trip and compare counts; that files do not drift from one round trip to the next depends on numbering, order of lines and formatting of all values", "anchors": ["src/geode/geosciences_io/mesh/ts_output.cpp:write_file", "src/geode/geosciences_io/mesh/ts_input.cpp:build_surface", "src/geode/geosciences_io/mesh/vs_output.cpp:write_file", "src/geode/geosciences_io/mesh/vs_input.cpp:build_point_set", "src/geode/geosciences_io/mesh/pl_output.cpp:write_ilines", "src/geode/geosciences_io/mesh/pl_input.cpp:build_curve"]}
{"id": "C152", "title": "A corner point grid without throw loads as a conforming grid", "statement": "When cells that touch agree on the depths of their common corners, the loaded solid has one vertex per node of the grid and hexahedra that share a facet exactly when their cells are neighbours; in general two corners on a pillar are the same vertex exactly when they have the same depth.", "quantifier": "all well-formed files, grid sizes, pillars and depths", "why_tests_cant": "a test checks counts on one grid; which vertices are shared depends on the numbering of pillars, of depths and of merged points in all cells", "anchors": ["src/geode/geosciences_io/mesh/grdecl_input.cpp:cell_points", "src/geode/geosciences_io/mesh/grdecl_input.cpp:create_points", "src/geode/geosciences_io/mesh/grdecl_input.cpp:create_cells", "src/geode/geosciences_io/mesh/grdecl_input.cpp:cell_pillars_id"]}
{"id": "C153", "title": "The data files of voxets that load are those whose lines are about cells of the grid", "statement": "A data file is loaded exactly when its second line has at least four words and each line after the third gives a cell of the grid and one number per property; otherwise an exception is raised, but for a line about a cell outside of the grid. The columns are the properties of the second line, each once, with one value per cell.", "quantifier": "all data files and grid sizes", "why_tests_cant": "tests read one good data file; the outcome for blank lines, repeated names, wrong counts and positions outside of the grid, and their combinations, is not exercised", "anchors": ["src/geode/geosciences_io/mesh/vo_input.cpp:read_data_file", "src/geode/geosciences_io/mesh/vo_input.cpp:read_file"]}
{"id": "C154", "title": "The outcome of every deviation survey is known", "statement": "A deviation survey is loaded exactly when its titles have each of X, Y and Z once and every row has one number for each title, and it then takes its name from its last name line; any other survey is refused with an exception.", "quantifier": "all surveys with two rules around a line of titles, all titles and rows", "why_tests_cant": "the test reads one good survey; missing and repeated titles, rows of other lengths and several name lines are not exercised", "anchors": ["src/geode/geosciences_io/mesh/well_dev_input.cpp:read_header", "src/geode/geosciences_io/mesh/well_dev_input.cpp:read_file", "src/geode/geosciences_io/mesh/well_dev_input.cpp:create_point", "src/geode/geosciences_io/mesh/well_dev_input.cpp:assign_point_attributes"]}
{"id": "C155", "title": "The outcome of every GOCAD well is known", "statement": "A .wl file is loaded exactly when it has a title, a header, a coordinate system that can be read, a reference with three numbers and path records with a word and three numbers; any other file, such as one with a record that lacks a number, is refused with an exception.", "quantifier": "all text files", "why_tests_cant": "the test reads one good well; the outcome of malformed, missing, interrupted and misplaced records is not exercised", "anchors": ["src/geode/geosciences_io/mesh/wl_input.cpp:read_file", "src/geode/geosciences_io/mesh/wl_input.cpp:read_paths", "src/geode/geosciences_io/mesh/wl_input.cpp:read_coord"]}
{"id": "C156", "title": "The curve files that load are known", "statement": "A .pl file loads exactly when each of its objects has a header, a coordinate system that can be read, an ILINE line, vertex lines with three coordinates and segment lines with two numbers, up to END or the end of the file, and its segments end at loaded vertices; the curve has the points and segments of these lines, each number counted from the number of the first vertex of the object.", "quantifier": "all text files", "why_tests_cant": "the tests read two good files; other orders of lines, numbers that do not start at one, several objects, unknown keywords and malformed lines are not exercised", "anchors": ["src/geode/geosciences_io/mesh/gocad_common.cpp:read_ilines", "src/geode/geosciences_io/mesh/gocad_common.cpp:read_ecurve", "src/geode/geosciences_io/mesh/pl_input.cpp:read_file", "src/geode/geosciences_io/mesh/pl_input.cpp:build_curve"]}
{"id": "C157", "title": "The point set files that load are known", "statement": "A .vs file loads exactly when each of its objects has a header, a coordinate system and properties that can be read, and vertex lines with three coordinates and a value for each item of each property, the first one with a number, up to END; the points are those of these lines, in order.", "quantifier": "all text files", "why_tests_cant": "the test reads one good file; several objects, properties of several items, unknown keywords and malformed lines are not exercised", "anchors": ["src/geode/geosciences_io/mesh/gocad_common.cpp:read_VSet_vertices", "src/geode/geosciences_io/mesh/gocad_common.cpp:read_vs_points", "src/geode/geosciences_io/mesh/vs_input.cpp:read_file", "src/geode/geosciences_io/mesh/vs_input.cpp:build_point_set"]}
{"id": "C158", "title": "The surface files that load are known", "statement": "A .ts file loads exactly when each of its objects has a header, a coordinate system and properties that can be read, a TFACE line, vertex lines with three coordinates or the number of a vertex before them, with a value for each item of each property, and triangle, stone and border lines with their numbers, up to END, and its triangles have loaded vertices; the surface has the points and triangles of these lines, each number counted from the number of the first vertex of the object.", "quantifier": "all text files", "why_tests_cant": "the tests read six good files; atoms that name atoms, numbers that do not start at one, unknown keywords and malformed lines are not exercised", "anchors": ["src/geode/geosciences_io/mesh/gocad_common.cpp:read_tfaces", "src/geode/geosciences_io/mesh/gocad_common.cpp:read_tsurf", "src/geode/geosciences_io/mesh/ts_input.cpp:read_file", "src/geode/geosciences_io/mesh/ts_input.cpp:build_surface"]}
{"id": "C159", "title": "Segments and triangles join vertices of their own object", "statement": "In a .pl or .ts file that loads, the segments and triangles of an object join vertices of that object.", "quantifier": "all text files that load", "why_tests_cant": "in the test files all the numbers are numbers of vertices; a number before the first vertex of an object is not exercised", "anchors": ["src/geode/geosciences_io/mesh/gocad_common.cpp:read_ilines", "src/geode/geosciences_io/mesh/gocad_common.cpp:read_tfaces", "src/geode/geosciences_io/mesh/pl_input.cpp:build_curve", "src/geode/geosciences_io/mesh/ts_input.cpp:build_surface"]}
{"id": "C160", "title": "GOCAD files can be put one after the other", "statement": "When two .pl, .vs or .ts files load, and for .pl files the first one ends with END, the file made of the one and then the other loads; its mesh has the points of the first, then those of the second, the cells of the first, then those of the second on its own points, and the last name.", "quantifier": "all pairs of text files that load, with at most 2^32 vertices in all", "why_tests_cant": "the tests load files of one or a few objects and compare counts", "anchors": ["src/geode/geosciences_io/mesh/pl_input.cpp:read_file", "src/geode/geosciences_io/mesh/vs_input.cpp:read_file", "src/geode/geosciences_io/mesh/ts_input.cpp:read_file", "src/geode/geosciences_io/mesh/gocad_common.cpp:read_ecurve", "src/geode/geosciences_io/mesh/gocad_common.cpp:read_vs_points", "src/geode/geosciences_io/mesh/gocad_common.cpp:read_tsurf"]}
{"id": "C161", "title": "Each title line of a GOCAD file starts an object", "statement": "In a .pl, .vs or .ts file that loads, there is one object for each line with the title of the format.", "quantifier": "all text files that load", "why_tests_cant": "the test files have all the sections of their objects", "anchors": ["src/geode/geosciences_io/mesh/gocad_common.cpp:read_ilines", "src/geode/geosciences_io/mesh/gocad_common.cpp:read_tfaces", "src/geode/geosciences_io/mesh/gocad_common.cpp:read_VSet_vertices", "src/geode/geosciences_io/mesh/pl_input.cpp:read_file", "src/geode/geosciences_io/mesh/vs_input.cpp:read_file", "src/geode/geosciences_io/mesh/ts_input.cpp:read_file"]}
{"id": "C162", "title": "The property headers that are read are known", "statement": "A property header is read exactly when the next line names properties and, each after the previous one, there are lines for legal ranges, no data values, classes, kinds, subclasses, sizes and units, with an entry for each property; the entries are kept in order, those in quotes without their quotes. Without the line of the names there are no properties. Otherwise an exception is thrown.", "quantifier": "all texts, all prefixes of the keywords", "why_tests_cant": "the test files have good headers, written by the same software", "anchors": ["src/geode/geosciences_io/mesh/gocad_common.cpp:read_prop_header", "src/geode/geosciences_io/mesh/gocad_common.cpp:split_string_considering_quotes", "src/geode/geosciences_io/mesh/gocad_common.cpp:read_property_keyword_with_one_string", "src/geode/geosciences_io/mesh/gocad_common.cpp:read_property_keyword_with_two_strings", "src/geode/geosciences_io/mesh/gocad_common.cpp:read_property_keyword_with_one_double", "src/geode/geosciences_io/mesh/gocad_common.cpp:read_property_keyword_with_one_index_t"]}
{"id": "C163", "title": "The LSO files that load are known", "statement": "An .lso file loads exactly when it has, in this order: a title, a header, a coordinate system, the property headers of the points and of the tetrahedra; lines of points, each with coordinates or with the number of a point that has its own place, and with the values of its properties; tetrahedra of these points in pairs of lines, the second with the name of a block; a MODEL line; surfaces and faces with triangles between numbers of places; and regions, with no fewer tetrahedra than vertices when the tetrahedra have properties. The points, their places, the tetrahedra, the horizons, the surfaces and the blocks are those of these lines, each mesh with the vertices in the order in which they are met.", "quantifier": "all text files", "why_tests_cant": "the tests load two files written by one program and compare counts", "anchors": ["src/geode/geosciences_io/model/internal/lso_input.cpp:read_file", "src/geode/geosciences_io/model/internal/lso_input.cpp:read_vertices", "src/geode/geosciences_io/model/internal/lso_input.cpp:read_tetrahedra", "src/geode/geosciences_io/model/internal/lso_input.cpp:read_surfaces", "src/geode/geosciences_io/model/internal/lso_input.cpp:read_blocks"]}
{"id": "C164", "title": "The ML files that load are known", "statement": "An .ml file loads exactly when it has, in this order: a title, a header, a coordinate system, component records up to END, and one TSurf object for each TSURF record. The groups named by TSURF records have different names, each TFACE record names a group given before and the last TFACE of each group has a known feature; the lists of the universe and of the regions name surfaces given before and end with 0, as do those of layers and fault blocks; each object has as many faces as its group and the triangles of a face are between vertices of this face. The surfaces, boundaries, faults, horizons, blocks, units and fault blocks of the model are those of these records, and the mesh of each surface has the vertices and triangles of the lines of its face.", "quantifier": "all text files", "why_tests_cant": "the tests load a few files written by one program and compare counts", "anchors": ["src/geode/geosciences_io/model/internal/ml_input.cpp:read_file", "src/geode/geosciences_io/model/internal/ml_input.cpp:read_model_components", "src/geode/geosciences_io/model/internal/ml_input.cpp:process_TFACE_keyword", "src/geode/geosciences_io/model/internal/ml_input.cpp:create_tsurfs", "src/geode/geosciences_io/model/internal/ml_input.cpp:create_block_topology", "src/geode/geosciences_io/model/internal/ml_input.cpp:build_surfaces"]}
{"id": "C165", "title": "ML objects are found by their names", "statement": "The surfaces of a group of an .ml file have the vertices and triangles of the TSurf object with the name of the group, whatever the order of the objects in the file.", "quantifier": "all text files", "why_tests_cant": "in the files of the tests the objects are in the order of the groups", "anchors": ["src/geode/geosciences_io/model/internal/ml_input.cpp:read_file", "src/geode/geosciences_io/model/internal/ml_input.cpp:build_surfaces"]}
{"id": "C166", "title": "Lines internal to ML surfaces are known", "statement": "In a model loaded from an .ml file, the lines internal to a surface are those that two or more line starts of the surface gave, and those that lie wholly on the surface and have the only vertex found at the place of a vertex of the surface that no corner and no line start reached.", "quantifier": "all surfaces, line starts and tolerances", "why_tests_cant": "the tests have a few models, where all the vertices of the borders are reached", "anchors": ["src/geode/geosciences_io/model/internal/ml_input.cpp:create_line_surface_relationships", "src/geode/geosciences_io/model/internal/ml_input.cpp:create_missing_line_surface_relationships", "src/geode/geosciences_io/model/internal/ml_input.cpp:should_line_be_internal"]}
{"id": "C167", "title": "Boundary lines of ML surfaces are not internal to them", "statement": "In a model loaded from an .ml file, a line on the boundary of a surface is not internal to it.", "quantifier": "all surfaces, line starts and tolerances", "why_tests_cant": "it takes a surface with two vertices at one place of its border", "anchors": ["src/geode/geosciences_io/model/internal/ml_input.cpp:create_missing_line_surface_relationships", "src/geode/geosciences_io/model/internal/ml_input.cpp:should_line_be_internal"]}
{"id": "C168", "title": "ML files that do not load are refused", "statement": "Loading an .ml file that does not load ends with an exception, not with undefined behaviour or an endless loop.", "quantifier": "all text files", "why_tests_cant": "the tests have no faulty .ml file", "anchors": ["src/geode/geosciences_io/model/internal/ml_input.cpp:read_file", "src/geode/geosciences_io/model/internal/ml_input.cpp:read_model_components", "src/geode/geosciences_io/model/internal/ml_input.cpp:read_universe", "src/geode/geosciences_io/model/internal/ml_input.cpp:create_block_topology", "src/geode/geosciences_io/model/internal/ml_input.cpp:build_surfaces"]}
{"id": "C169", "title": "LSO files that do not load are refused", "statement": "Loading an .lso file that does not load ends with an exception, not with undefined behaviour or an endless loop.", "quantifier": "all text files", "why_tests_cant": "the tests have no faulty .lso file", "anchors": ["src/geode/geosciences_io/model/internal/lso_input.cpp:read_file", "src/geode/geosciences_io/model/internal/lso_input.cpp:read_vertices", "src/geode/geosciences_io/model/internal/lso_input.cpp:read_tetrahedra", "src/geode/geosciences_io/model/internal/lso_input.cpp:read_surfaces", "src/geode/geosciences_io/model/internal/lso_input.cpp:read_blocks"]}
{"id": "C170", "title": "Deviation surveys that do not load are refused", "statement": "Loading a .dev file that does not load ends with an exception, not with undefined behaviour or an endless loop, whatever its heading and its rows.", "quantifier": "all text files", "why_tests_cant": "the test reads one good survey: headings with several lines of titles, without any, or cut names are never read", "anchors": ["src/geode/geosciences_io/mesh/well_dev_input.cpp:read_header", "src/geode/geosciences_io/mesh/well_dev_input.cpp:create_point", "src/geode/geosciences_io/mesh/well_dev_input.cpp:assign_point_attributes", "src/geode/geosciences_io/mesh/well_dev_input.cpp:read_file"]}
{"id": "C171", "title": "Coordinate systems and property headers that cannot be read are refused", "statement": "Reading a coordinate system or a property header that cannot be read ends with an exception, not with undefined behaviour, whatever its lines.", "quantifier": "all text files and all prefixes of the keywords of the header", "why_tests_cant": "the test files have well-formed headers: missing quotes, units or ranges and blank lines are never read", "anchors": ["src/geode/geosciences_io/mesh/gocad_common.cpp:read_CRS", "src/geode/geosciences_io/mesh/gocad_common.cpp:read_prop_header", "src/geode/geosciences_io/mesh/gocad_common.cpp:split_string_considering_quotes"]}
{"id": "C172", "title": "Curves, point sets, surfaces and wells that do not load are refused", "statement": "Loading a .pl, .vs, .ts or .wl file that does not load ends with an exception, not with undefined behaviour or an endless loop, whatever its objects.", "quantifier": "all text files", "why_tests_cant": "the tests read good files: incomplete lines, missing vertices and unreadable headers are never read", "anchors": ["src/geode/geosciences_io/mesh/gocad_common.cpp:read_ilines", "src/geode/geosciences_io/mesh/gocad_common.cpp:read_tfaces", "src/geode/geosciences_io/mesh/gocad_common.cpp:read_VSet_vertices", "src/geode/geosciences_io/mesh/pl_input.cpp:build_curve", "src/geode/geosciences_io/mesh/ts_input.cpp:build_surface", "src/geode/geosciences_io/mesh/wl_input.cpp:read_file"]}
{"id": "C173", "title": "Voxets that do not load are refused", "statement": "Loading a .vo file that does not load, with its data file, ends with an exception, not with undefined behaviour, whatever its text and the text of the data file.", "quantifier": "all text files, all file systems and all grids with less than 2^32 cells", "why_tests_cant": "the test reads one good voxet: incomplete axes, sizes or values and cells outside of the grid are never read", "anchors": ["src/geode/geosciences_io/mesh/vo_input.cpp:read_file", "src/geode/geosciences_io/mesh/vo_input.cpp:initialize_grid", "src/geode/geosciences_io/mesh/vo_input.cpp:read_cells_number", "src/geode/geosciences_io/mesh/vo_input.cpp:read_coord", "src/geode/geosciences_io/mesh/vo_input.cpp:read_data_file"]}
{"id": "C174", "title": "Corner point grids that do not load are refused", "statement": "Loading a .grdecl file that does not load, with its included files, ends with an exception, not with undefined behaviour or an endless loop, whatever its text.", "quantifier": "all text files, all included files and all grids with less than 2^32 depths and pillars", "why_tests_cant": "the tests read good files: missing, incomplete or unfinished sections and wrong numbers of pillars or depths are never read", "anchors": ["src/geode/geosciences_io/mesh/grdecl_input.cpp:read_file", "src/geode/geosciences_io/mesh/grdecl_input.cpp:read_dimensions", "src/geode/geosciences_io/mesh/grdecl_input.cpp:read_pillars_from_file", "src/geode/geosciences_io/mesh/grdecl_input.cpp:read_pillar", "src/geode/geosciences_io/mesh/grdecl_input.cpp:read_depths_from_file"]}
{"id": "C175", "title": "Shapefiles that do not load are refused", "statement": "Loading a shapefile that does not load ends with an exception, not with undefined behaviour, whatever its layers and features.", "quantifier": "all lists of layers with all features, each layer of lines with less than 2^32 points", "why_tests_cant": "the tests read one good file of each kind: features without geometry, lines of one point and empty rings are never read", "anchors": ["src/geode/geosciences_io/model/internal/shp_input.cpp:read_file", "src/geode/geosciences_io/model/internal/shp_input.cpp:create_corner", "src/geode/geosciences_io/model/internal/shp_input.cpp:create_line", "src/geode/geosciences_io/model/internal/shp_input.cpp:read_line", "src/geode/geosciences_io/model/internal/shp_input.cpp:read_points", "src/geode/geosciences_io/model/internal/shp_input.cpp:create_surface", "src/geode/geosciences_io/model/internal/shp_input.cpp:read_polygon"]}
{"id": "C176", "title": "Exports for GEOS that are not made are refused", "statement": "An export for GEOS that is not made ends with an exception, not with undefined behaviour, whatever the blocks, the units, the properties of the blocks and the properties asked for.", "quantifier": "all sound models, all conversions of their blocks into a solid and all lists of properties asked for", "why_tests_cant": "the tests export models whose blocks all have the properties asked for and are all in a unit", "anchors": ["src/geode/geosciences_io/model/internal/geos_export.cpp:prepare_export", "src/geode/geosciences_io/model/internal/geos_export.cpp:initialize_solid_region_attribute", "src/geode/geosciences_io/model/internal/geos_export.cpp:transfer_cell_properties", "src/geode/geosciences_io/model/internal/geos_export.cpp:check_property_name", "src/geode/geosciences_io/model/helpers/structural_model_geos_export.cpp:create_region_attribute_map"]}
{"id": "C177", "title": "Saving and loading an ML model a second time changes nothing", "statement": "A model loaded from the ML file of a sound model can be saved and loaded again, and the second loading gives the same name, surfaces, meshes, model boundaries, faults, horizons, units and fault blocks, and the same blocks up to the order of their surfaces.", "quantifier": "all sound models with any number of surfaces, collections, blocks and units", "why_tests_cant": "the tests save models once; a saved file is loaded and compared only by counts", "anchors": ["src/geode/geosciences_io/model/internal/ml_output_impl.hpp:write_tsurfs", "src/geode/geosciences_io/model/internal/ml_output_impl.hpp:write_tfaces", "src/geode/geosciences_io/model/internal/ml_input.cpp:create_tsurfs", "src/geode/geosciences_io/model/internal/ml_input.cpp:process_unassigned_model_boundaries"]}
{"id": "C178", "title": "Saving and loading an LSO model a second time changes nothing", "statement": "A model loaded from the LSO file of a sound model can be saved and loaded again, and the second loading gives the same name, unique vertices, horizons, surfaces, tetrahedra, points and relations between blocks and surfaces.", "quantifier": "all sound models with any number of vertices, surfaces, collections and blocks, all identifiers of the loaded blocks and all model boundaries made of the loaded surfaces", "why_tests_cant": "the tests save models once; a saved file is loaded and compared only by counts", "anchors": ["src/geode/geosciences_io/model/internal/lso_output.cpp:write_vertices", "src/geode/geosciences_io/model/internal/lso_output.cpp:write_regions", "src/geode/geosciences_io/model/internal/lso_input.cpp:read_vertices", "src/geode/geosciences_io/model/internal/lso_input.cpp:build_block_mesh", "src/geode/geosciences_io/model/internal/lso_input.cpp:find_block_relations"]}
{"id": "C179", "title": "Saved curves can be loaded", "statement": "The file written for any curve whose edges join existing vertices can be loaded.", "quantifier": "all curves, with any number of open lines, branches, loops and isolated vertices", "why_tests_cant": "whether it loads depends on how the indices of the vertices compare with the order in which the lines and loops are walked; the tests save one open line", "anchors": ["src/geode/geosciences_io/mesh/pl_output.cpp:write_ilines", "src/geode/geosciences_io/mesh/pl_output.cpp:starting_edge", "src/geode/geosciences_io/mesh/pl_input.cpp:build_curve"]}
{"id": "C180", "title": "Coordinates come back to six digits", "statement": "A coordinate of a vertex of a mesh or model that is saved and loaded comes back within one part in 199999 of itself, and unchanged exactly when it is the double of a number with six digits; a property value comes back within one part in 197000.", "quantifier": "all doubles; all surfaces, point sets, curves, LSO and ML models whose geometry is read back", "why_tests_cant": "the loss depends on all digits and on the exponent of each number; the tests compare counts of vertices, not coordinates", "anchors": ["src/geode/geosciences_io/mesh/ts_output.cpp:write_vrtx", "src/geode/geosciences_io/mesh/vs_output.cpp:write_vrtx", "src/geode/geosciences_io/mesh/pl_output.cpp:write_pvrtx", "src/geode/geosciences_io/model/internal/lso_output.cpp:write_vertices", "src/geode/geosciences_io/mesh/ts_input.cpp:read_file"]}
{"id": "C181", "title": "Different vertices stay different", "statement": "Vertices of a saved surface that are at different points are at different points in the loaded surface.", "quantifier": "all surfaces with coordinates in doubles", "why_tests_cant": "it needs coordinates that are large compared with the distance of the vertices, such as those of national grids; the tests do not compare points", "anchors": ["src/geode/geosciences_io/mesh/ts_output.cpp:write_vrtx", "src/geode/geosciences_io/mesh/ts_input.cpp:read_file"]}
{"id": "C182", "title": "Values in .fem files keep their digits", "statement": "A property value in a .fem file is written with six digits: the number written is within one part in 199999 of the value.", "quantifier": "all property values in doubles, of all elements", "why_tests_cant": "it fails for small values only, and the unit of a property decides how large its values are", "anchors": ["src/geode/geosciences_io/mesh/fem_output.cpp:write_chunks", "src/geode/geosciences_io/mesh/fem_output.cpp:write_property"]}
{"id": "C183", "title": "Files of Windows load as others", "statement": "A carriage return at the end of every line of a file, and of the files it names, does not change the outcome of loading it.", "quantifier": "all files of the formats TS, VS, PL, DEV, TXT, DAT, WL, VO, GRDECL, ML and LSO, well formed or not; for VO, header files without other carriage returns", "why_tests_cant": "every keyword and every line of every format is concerned; the test data have one kind of line ends each, and are never loaded in both", "anchors": ["src/geode/geosciences_io/mesh/ts_input.cpp:read_file", "src/geode/geosciences_io/mesh/pl_input.cpp:read_file", "src/geode/geosciences_io/mesh/vo_input.cpp:read_data_file", "src/geode/geosciences_io/mesh/grdecl_input.cpp:read_file", "src/geode/geosciences_io/model/internal/ml_input.cpp:read_file", "src/geode/geosciences_io/model/internal/lso_input.cpp:read_file"]}
{"id": "C184", "title": "Blanks at the ends of lines do not matter", "statement": "Files that differ only by blanks at the ends of their lines are recognised for the same formats and loading them has the same outcome.", "quantifier": "all files of the text formats, well formed or not, and the files they name", "why_tests_cant": "blanks at the ends of lines are not seen, and are added by editors and by other programs; the tests have a few files of one program", "anchors": ["src/geode/geosciences_io/mesh/ts_input.cpp:read_file", "src/geode/geosciences_io/mesh/vo_input.cpp:get_data_file", "src/geode/geosciences_io/mesh/well_dev_input.cpp:read_file", "src/geode/geosciences_io/mesh/grdecl_input.cpp:get_filenames_and_keywords", "src/geode/geosciences_io/model/internal/ml_input.cpp:read_file", "src/geode/geosciences_io/model/internal/lso_input.cpp:read_file"]}
{"id": "C185", "title": "Comment lines do not change what is loaded", "statement": "A line of comment, which starts with the character #, does not change the outcome of loading a GOCAD file wherever it is and whatever it says.", "quantifier": "all TS, VS, PL, WL and VO files, well formed or not, with any number of comments of any texts at any places", "why_tests_cant": "there is a comment to try at each place of each file; no file of the tests has one inside an object", "anchors": ["src/geode/geosciences_io/mesh/ts_input.cpp:read_file", "src/geode/geosciences_io/mesh/vs_input.cpp:read_file", "src/geode/geosciences_io/mesh/pl_input.cpp:read_file", "src/geode/geosciences_io/mesh/wl_input.cpp:read_file", "src/geode/geosciences_io/mesh/vo_input.cpp:read_file", "src/geode/geosciences_io/mesh/gocad_common.cpp:read_header", "src/geode/geosciences_io/mesh/gocad_common.cpp:read_CRS"]}
{"id": "C186", "title": "A file is loaded as one kind of object", "statement": "Two readers that are used for files of the same extension have different priorities, so that the kind of object a file is loaded as is decided when none is asked for.", "quantifier": "all extensions and all pairs of readers that are registered for them", "why_tests_cant": "each test asks for one kind of object; the readers of one extension are in different libraries and are not compared by any of them", "anchors": ["src/geode/geosciences_io/mesh/common.cpp:register_polygonal_surface_input", "src/geode/geosciences_io/model/common.cpp:register_horizons_stack_input", "include/geode/geosciences_io/mesh/internal/geotiff_input.hpp:object_priority", "include/geode/geosciences_io/mesh/internal/polytiff_input.hpp:object_priority", "include/geode/geosciences_io/model/internal/horizons_stack_skua_input.hpp:object_priority"]}
{"id": "C187", "title": "Undefined values do not spoil FEM properties", "statement": "When some values of a scalar element property are NaN, each element is still listed exactly once under its own value in a FEM file, the undefined ones under nan.", "quantifier": "all lists of values, each of which is a number or NaN", "why_tests_cant": "the behaviour depends on which values are undefined and which of the others are equal; no test has a NaN", "anchors": ["src/geode/geosciences_io/mesh/fem_output.cpp:write_property", "src/geode/geosciences_io/mesh/fem_output.cpp:create_attribute_distribution"]}
{"id": "C188", "title": "Models loaded from .lso files can be saved to .ml files", "statement": "A structural model loaded from a .lso file, saved to a .ml file and loaded again has the same surfaces in the same order with the same triangles, the same horizons with the same surfaces, and blocks with the same boundary and internal surfaces.", "quantifier": "every .lso file that loads with names that .ml files can hold, whatever the model boundaries made while it is loaded", "why_tests_cant": "two formats are involved, and what goes wrong depends on the collections each surface is in; the tests convert no .lso file to .ml", "anchors": ["src/geode/geosciences_io/model/internal/lso_input.cpp:read_file", "src/geode/geosciences_io/model/internal/lso_input.cpp:read_tfaces", "src/geode/geosciences_io/model/internal/ml_output_structural_model.cpp:write_geological_tfaces", "src/geode/geosciences_io/model/internal/ml_input.cpp:create_tsurfs", "include/geode/geosciences_io/model/internal/ml_output_impl.hpp:write_tfaces"]}
{"id": "C189", "title": "Shapefiles recognised are those something is loaded from", "statement": "The library says that it can load a shapefile exactly when loading it gives a section with at least one corner, line or surface.", "quantifier": "all lists of layers of all types", "why_tests_cant": "all files of the tests have one layer of a known type", "anchors": ["src/geode/geosciences_io/model/internal/shp_input.cpp:is_loadable", "src/geode/geosciences_io/model/internal/shp_input.cpp:read_file"]}
{"id": "C190", "title": "The order of the sections of a corner point grid does not matter", "statement": "A .grdecl file whose dimensions, pillars and depths are in sections gives the same grid whatever the order of the sections.", "quantifier": "every sections, every order, every other lines between them", "why_tests_cant": "The files of the tests have the sections in one order.", "anchors": ["src/geode/geosciences_io/mesh/grdecl_input.cpp:read_file", "src/geode/geosciences_io/mesh/grdecl_input.cpp:read_pillars_from_file", "src/geode/geosciences_io/mesh/grdecl_input.cpp:read_depths_from_file"]}
{"id": "C191", "title": "The depths of a corner point grid are read however they are written", "statement": "The depths of a section are read when values are repeated with n*value, when lines of comment stand between them and when the slash that ends the section follows the last value, as the format allows.", "quantifier": "every list of depths and every way to write it", "why_tests_cant": "The files of the tests have one number per word and the slash on its own line.", "anchors": ["src/geode/geosciences_io/mesh/grdecl_input.cpp:read_pillar", "src/geode/geosciences_io/mesh/grdecl_input.cpp:read_depths_from_file"]}
{"id": "C192", "title": "Other sections do not change a corner point grid", "statement": "Lines whose first word is not a keyword of the grid can be added between the sections without changing what is loaded.", "quantifier": "every sections and every lines between them", "why_tests_cant": "The sections that other programs write are many; the tests have two files.", "anchors": ["src/geode/geosciences_io/mesh/grdecl_input.cpp:read_pillars_from_file", "src/geode/geosciences_io/mesh/grdecl_input.cpp:read_depths_from_file"]}
{"id": "C193", "title": "Blanks between words do not matter", "statement": "Two files whose lines have the same words, whatever the number of blanks and tabulations between and before them, load as the same objects.", "quantifier": "every pair of files with the same words on each line, in every text format but the SKUA one", "why_tests_cant": "The files of the tests have one blank between words; files of other programs have aligned columns.", "anchors": ["src/geode/geosciences_io/mesh/ts_input.cpp:read_file", "src/geode/geosciences_io/mesh/vo_input.cpp:read_file", "src/geode/geosciences_io/mesh/well_dev_input.cpp:read_header", "src/geode/geosciences_io/model/internal/ml_input.cpp:read_file", "src/geode/geosciences_io/model/internal/lso_input.cpp:read_file", "src/geode/geosciences_io/mesh/grdecl_input.cpp:read_file"]}
{"id": "C194", "title": "Vertices may have any numbers", "statement": "The numbers of the vertices of a surface, a curve or a solid need only be different: each triangle, segment and tetrahedron joins the vertices that have the numbers written in it.", "quantifier": "every list of points, every numbering of them by different 32-bit numbers and every list of triangles, segments or tetrahedra", "why_tests_cant": "The files of the tests have vertices numbered 1, 2, 3, ...; programs that delete vertices keep the numbers of the others.", "anchors": ["src/geode/geosciences_io/mesh/ts_input.cpp:build_surface", "src/geode/geosciences_io/mesh/gocad_common.cpp:read_tsurf", "src/geode/geosciences_io/mesh/gocad_common.cpp:read_ecurve", "src/geode/geosciences_io/mesh/pl_input.cpp:build_curve", "src/geode/geosciences_io/model/internal/lso_input.cpp:read_vertices", "src/geode/geosciences_io/model/internal/lso_input.cpp:read_tetrahedra"]}
{"id": "C195", "title": "Components of ML files may have any numbers", "statement": "The surfaces and regions of a .ml file may be numbered in any way: each list of surfaces refers to the surfaces that have the numbers written in it.", "quantifier": "every numbering of the surfaces of a horizon by different positive numbers, and every region between two of them", "why_tests_cant": "The files of the tests have components numbered 1, 2, 3, ... in the order of the file, so that the number of a component is its rank.", "anchors": ["src/geode/geosciences_io/model/internal/ml_input.cpp:process_TFACE_keyword", "src/geode/geosciences_io/model/internal/ml_input.cpp:process_REGION_keyword", "src/geode/geosciences_io/model/internal/ml_input.cpp:create_block_topology"]}
{"id": "C196", "title": "The order of the records of an ML file is free", "statement": "Two .ml files with the same records of each kind in the same order (groups, surfaces, universe, regions, layers, fault blocks), the same objects and different orders between the kinds load as the same model, as long as each surface comes after its group and each region after its surfaces.", "quantifier": "every pair of such files", "why_tests_cant": "The files of the tests have their records in one order, which is also that of the writer.", "anchors": ["src/geode/geosciences_io/model/internal/ml_input.cpp:read_model_components", "src/geode/geosciences_io/model/internal/ml_input.cpp:create_stratigraphic_unit_topology", "src/geode/geosciences_io/model/internal/ml_input.cpp:create_fault_block_topology"]}
{"id": "C197", "title": "The points that are one in an ML file do not depend on the unit", "statement": "Two points of the surfaces of a .ml file are taken as one exactly when they are within a ten-millionth of the size of the model; the answer, and the lines and unique vertices built from it, do not change when all coordinates are written in another unit or from another origin.", "quantifier": "every list of points, every unit and every origin", "why_tests_cant": "The models of the tests are all in metres, none is flat along an axis, and the same points are written with the same digits.", "anchors": ["src/geode/geosciences_io/model/internal/ml_input.cpp:compute_epsilon", "src/geode/geosciences_io/model/internal/ml_input.cpp:are_lines_equal", "src/geode/geosciences_io/model/internal/ml_input.cpp:are_lines_reverse_equal", "src/geode/geosciences_io/model/internal/ml_input.cpp:create_missing_line_surface_relationships"]}
{"id": "C198", "title": "The hexahedra of corner point grids have eight distinct vertices", "statement": "Every hexahedron of the solid loaded from a corner point grid has eight distinct vertices.", "quantifier": "every grid size, pillars and depths", "why_tests_cant": "The grids of the tests have few pinched cells, and the tests count the hexahedra without looking at their vertices.", "anchors": ["src/geode/geosciences_io/mesh/grdecl_input.cpp:create_points", "src/geode/geosciences_io/mesh/grdecl_input.cpp:create_cells", "src/geode/geosciences_io/mesh/grdecl_input.cpp:cell_points"]}
{"id": "C199", "title": "The inactive cells of corner point grids are left out", "statement": "The solid loaded from a corner point grid has one hexahedron per cell that the ACTNUM section of the file declares active.", "quantifier": "every grid and every list of active cells", "why_tests_cant": "No file of the tests declares inactive cells.", "anchors": ["src/geode/geosciences_io/mesh/grdecl_input.cpp:read_file", "src/geode/geosciences_io/mesh/grdecl_input.cpp:create_cells"]}
{"id": "C200", "title": "Other lines between the records of ML files are ignored", "statement": "A line whose first word is none of the keywords TSURF, TFACE, REGION, LAYER and FAULT_BLOCK does not change the outcome of loading a .ml file, wherever it is between the records of the components.", "quantifier": "every file and every such line, at every place outside of the lists of numbers", "why_tests_cant": "The files of the tests have no other lines between the records than the points of the key triangles.", "anchors": ["src/geode/geosciences_io/model/internal/ml_input.cpp:read_model_components", "src/geode/geosciences_io/model/internal/ml_input.cpp:process_REGION_keyword", "src/geode/geosciences_io/model/internal/ml_input.cpp:create_block_topology"]}
{"id": "C201", "title": "Models saved to LSO files can be loaded", "statement": "A model that has been saved to a .lso file can be loaded from this file.", "quantifier": "every model whose vertices and cells are sound, whatever its names and numbers of cells", "why_tests_cant": "The models of the tests have tetrahedra and named collections.", "anchors": ["src/geode/geosciences_io/model/internal/lso_output.cpp:write_file", "src/geode/geosciences_io/model/internal/lso_output.cpp:write_surfaces", "src/geode/geosciences_io/model/internal/lso_input.cpp:read_tetrahedra", "src/geode/geosciences_io/model/internal/lso_input.cpp:read_surfaces"]}
{"id": "C202", "title": "Models loaded from ML files can be saved to ML files", "statement": "A model that has been loaded from a .ml file can be saved to a .ml file, without exception or undefined behaviour.", "quantifier": "every file that is loaded, whatever its records and objects", "why_tests_cant": "The tests save one loaded model, all of whose surfaces have triangles.", "anchors": ["src/geode/geosciences_io/model/internal/ml_output_impl.hpp:write_file", "src/geode/geosciences_io/model/internal/ml_output_impl.hpp:write_tfaces", "src/geode/geosciences_io/model/internal/ml_input.cpp:read_file"]}
{"id": "C203", "title": "Models loaded from LSO files can be saved to LSO files", "statement": "A model that has been loaded from a .lso file can be saved to a .lso file, without exception or undefined behaviour.", "quantifier": "every file that is loaded, whatever its vertices, tetrahedra, surfaces and regions", "why_tests_cant": "The tests save two loaded models, all of whose vertices are in tetrahedra.", "anchors": ["src/geode/geosciences_io/model/internal/lso_output.cpp:write_file", "src/geode/geosciences_io/model/internal/lso_output.cpp:write_vertices", "src/geode/geosciences_io/model/internal/lso_output.cpp:write_regions", "src/geode/geosciences_io/model/internal/lso_input.cpp:read_file"]}
{"id": "C204", "title": "Curves and wells that are loaded can be saved as curves", "statement": "A curve loaded from a .pl file, or a well loaded from a .dat, .txt, .dev or .wl file, can be saved to a .pl file whatever its attributes, without exception or undefined behaviour, and the file has one segment record for each of its edges.", "quantifier": "every file that is loaded, of each format, and any attributes", "why_tests_cant": "The tests never save a well; they save curves of a few fixed shapes.", "anchors": ["src/geode/geosciences_io/mesh/pl_output.cpp:write_ilines", "src/geode/geosciences_io/mesh/pl_output.cpp:get_edged_vertex_on_iline", "src/geode/geosciences_io/mesh/wl_input.cpp:read_file", "src/geode/geosciences_io/mesh/well_dev_input.cpp:read_file"]}
{"id": "C205", "title": "Wells saved as curves come back", "statement": "A well loaded from a .dat, .txt, .dev or .wl file, saved to a .pl file and loaded from it has the same points, as they are written, in the same order, and the same edges.", "quantifier": "every well that is loaded, with any number of points", "why_tests_cant": "The tests never convert a well to another format.", "anchors": ["src/geode/geosciences_io/mesh/pl_output.cpp:write_ilines", "src/geode/geosciences_io/mesh/pl_input.cpp:read_file", "src/geode/geosciences_io/mesh/wl_input.cpp:read_file", "src/geode/geosciences_io/mesh/well_dev_input.cpp:read_file"]}
{"id": "C206", "title": "Surfaces and point sets that are loaded come back from the files they are saved in", "statement": "A surface loaded from a .ts file and saved to a .ts file, or a point set loaded from a .vs file and saved to a .vs file, is loaded again from that file with the same name, the same points, as they are written, and the same triangles.", "quantifier": "every file that is loaded, with any number of objects, and any attributes whose names are distinct and can be written", "why_tests_cant": "The tests save and reload a few loaded files, whose names are single words and which are not empty.", "anchors": ["src/geode/geosciences_io/mesh/ts_input.cpp:read_file", "src/geode/geosciences_io/mesh/ts_output.cpp:write_file", "src/geode/geosciences_io/mesh/vs_input.cpp:read_file", "src/geode/geosciences_io/mesh/vs_output.cpp:write_file", "src/geode/geosciences_io/mesh/gocad_common.cpp:read_header"]}
