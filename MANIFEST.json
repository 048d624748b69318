{
 "claims": [
  {
   "property": "C01",
   "status": "proved",
   "theorems": [
    "Verif.Props.TSurf.roundtrip_geometry",
    "Verif.Props.TSurf.load_save",
    "Verif.Props.TSurf.loadTS_terminates"
   ],
   "note": ""
  },
  {
   "property": "C02",
   "status": "proved",
   "theorems": [
    "Verif.Props.TSurf.roundtrip_properties",
    "Verif.Props.TSurf.load_save"
   ],
   "note": ""
  },
  {
   "property": "C03",
   "status": "partial",
   "theorems": [
    "Verif.Props.VSet.roundtrip_partial",
    "Verif.Props.VSet.empty_throws",
    "Verif.Props.VSet.empty_not_kept",
    "Verif.Props.VSet.empty_steals",
    "Verif.Props.VSet.loadVS_terminates",
    "Verif.Props.ExactSmall.kept_iff"
   ],
   "note": "False of the code for the empty point set (empty_not_kept): the saved file has no vertex line and cannot be loaded. roundtrip_partial proves it for every non-empty point set. kept_iff: exactly the non-empty ones are kept."
  },
  {
   "property": "C04",
   "status": "partial",
   "theorems": [
    "Verif.Props.PLine.round_trip_partial",
    "Verif.Props.PLine.loop_not_preserved",
    "Verif.Props.PLine.loop_after_isolated_vertices",
    "Verif.Props.PLine.no_edge_not_reloaded",
    "Verif.Props.PLineLoops.round_trip_iff",
    "Verif.Props.PLineLoops.one_loop_iff"
   ],
   "note": "Proved for every curve with at least one edge and no closed loop (any branching, any isolated vertices, any attributes). round_trip_iff says which curves with closed loops are kept: those where the vertex of the file with the index of the first vertex of a loop is this vertex (exactly those when no two vertices are at the same point); a curve that is one loop is kept when its first edge starts at its first vertex (one_loop_iff). False otherwise: the closing segment of a loop is written with the mesh index of its first vertex instead of its number in the file (wrong segment, or undefined behaviour on reload); a curve without edges cannot be reloaded. Coordinates are compared after the rounding of number formatting."
  },
  {
   "property": "C05",
   "status": "proved",
   "theorems": [
    "Verif.Props.PLine.save_one_seg_per_edge",
    "Verif.Props.PLine.save_each_edge_once"
   ],
   "note": "For every curve whose edges join vertices of the curve."
  },
  {
   "property": "C06",
   "status": "proved",
   "theorems": [
    "Verif.Props.TSurf.union_of_objects"
   ],
   "note": ""
  },
  {
   "property": "C07",
   "status": "partial",
   "theorems": [
    "Verif.Props.TSurf.properties_overwritten",
    "Verif.Props.TSurf.properties_kept_partial",
    "Verif.Props.TSurf.clash_loaded",
    "Verif.Props.VSet.properties_overwritten",
    "Verif.Props.GocadVectors.other_vertices",
    "Verif.Props.GocadVectors.other_object_loses",
    "Verif.Props.ManyProps.properties_kept_iff",
    "Verif.Props.ManyProps.loaded_values",
    "Verif.Props.ManyProps.last_object_first",
    "Verif.Props.ManySets.properties_kept_iff",
    "Verif.Props.ManySets.loaded_values"
   ],
   "note": "False of the code (properties_overwritten): the values of a later object are written over those of the vertices of the first one. properties_kept_partial proves it when only the first object has properties. other_vertices says what becomes of the values of the other vertices, which depends on the numbers of components. loaded_values: the properties of each object of a .ts file in turn are given to the first vertices of the whole surface. properties_kept_iff: the vertices keep their own values exactly when the last values given to their places are theirs. The same for .vs files whose objects have points."
  },
  {
   "property": "C08",
   "status": "proved",
   "theorems": [
    "Verif.Props.GocadBody.base_independent",
    "Verif.Props.GocadBody.base_independent_pl",
    "Verif.Props.GocadBody.load_file",
    "Verif.Props.GocadBody.load_filePL",
    "Verif.Props.GocadBody.base_matters_before_first_vertex"
   ],
   "note": "For bodies whose first record is a vertex; base_matters_before_first_vertex shows that this is needed."
  },
  {
   "property": "C09",
   "status": "proved",
   "theorems": [
    "Verif.Props.GocadBody.depth_ts",
    "Verif.Props.GocadBody.depth_pl",
    "Verif.Props.GocadBody.depth_vs",
    "Verif.Props.Digits.depth"
   ],
   "note": "Formatting is assumed to commute with the change of sign, which is proved for doubles (Digits.round_neg)."
  },
  {
   "property": "C10",
   "status": "proved",
   "theorems": [
    "Verif.Props.GocadText.names_survive",
    "Verif.Props.GocadText.quote_lost"
   ],
   "note": ""
  },
  {
   "property": "C100",
   "status": "proved",
   "theorems": [
    "Verif.Props.MlLines.lines_once"
   ],
   "note": "For every list of line starts."
  },
  {
   "property": "C101",
   "status": "proved",
   "theorems": [
    "Verif.Props.MlLines.pieces_on_lines"
   ],
   "note": "The comparison of points is a parameter."
  },
  {
   "property": "C102",
   "status": "partial",
   "theorems": [
    "Verif.Props.MlLines.relations_right_partial",
    "Verif.Props.MlLines.single_line_unrelated",
    "Verif.Props.MlExactLines.relations_right_iff"
   ],
   "note": "Proved for surfaces with at least two line starts. False for a single one: the line gets no relation. relations_right_iff: exactly the surfaces with a single line start are wrong."
  },
  {
   "property": "C103",
   "status": "proved",
   "theorems": [
    "Verif.Props.MlLines.vertices_attached",
    "Verif.Props.MlLines.missing_fails_iff"
   ],
   "note": "The search of points at a place is a parameter."
  },
  {
   "property": "C104",
   "status": "partial",
   "theorems": [
    "Verif.Props.MlLines.internals_lie",
    "Verif.Props.MlLines.single_line_internal"
   ],
   "note": "internals_lie says which lines are made internal, for every surface. False for a surface with a single line, its boundary, which is made internal."
  },
  {
   "property": "C105",
   "status": "partial",
   "theorems": [
    "Verif.Props.GrdeclIncludes.included",
    "Verif.Props.GrdeclIncludes.included_sections_partial",
    "Verif.Props.GrdeclIncludes.missing_file",
    "Verif.Props.GrdeclIncludes.plain_name_ignored",
    "Verif.Props.GrdeclIncludes.blank_name_cut"
   ],
   "note": "included says, for all inclusions, what is read from where. The section is found when the name has it between an underscore and a dot; false for the other names, which are not used, and for names with blanks, which are cut."
  },
  {
   "property": "C106",
   "status": "proved",
   "theorems": [
    "Verif.Props.GocadVectors.tsurf_object",
    "Verif.Props.GocadVectors.vset_object",
    "Verif.Props.GocadVectors.tsurf_values",
    "Verif.Props.GocadVectors.vset_values"
   ],
   "note": "For one object in a file (see C07 for several), distinct names and at least one component."
  },
  {
   "property": "C107",
   "status": "proved",
   "theorems": [
    "Verif.Props.FemFile.coordinates_listed",
    "Verif.Props.FemFile.coordinates_sorted"
   ],
   "note": "For every lawful printing of numbers."
  },
  {
   "property": "C108",
   "status": "proved",
   "theorems": [
    "Verif.Props.FemFile.dfe_xml"
   ],
   "note": "For numbers printed without a closing bracket and fewer than 2^32-2 features."
  },
  {
   "property": "C109",
   "status": "partial",
   "theorems": [
    "Verif.Props.FemFile.sections_in_order_partial",
    "Verif.Props.FemFile.attribute_named_end",
    "Verif.Props.FemFile.dimensions_announced",
    "Verif.Props.FemSections.sections_in_order_iff",
    "Verif.Props.FemSections.all_keys"
   ],
   "note": "False when an attribute is named as a keyword. Proved when no written attribute is, and no name has an end of line. The dimensions are proved for every mesh. sections_in_order_iff: when no name has an end of line, it holds exactly for the meshes without a written attribute named as a keyword; all_keys lists the keyword lines of every file."
  },
  {
   "property": "C11",
   "status": "proved",
   "theorems": [
    "Verif.Props.GocadText.header_roundtrip"
   ],
   "note": ""
  },
  {
   "property": "C110",
   "status": "partial",
   "theorems": [
    "Verif.Props.GrdeclDims.dimensions_partial",
    "Verif.Props.GrdeclDims.dimensions_from",
    "Verif.Props.GrdeclDims.comment_refused",
    "Verif.Props.GrdeclDims.other_type",
    "Verif.Props.GrdeclDims.never_ub",
    "Verif.Props.GrdeclDims.dimensions_not_read",
    "Verif.Props.ExactFiles.dimensions_iff"
   ],
   "note": "False when a comment follows SPECGRID: it is refused. Proved without comments in the section. dimensions_iff says exactly when the dimensions are those of the section."
  },
  {
   "property": "C111",
   "status": "partial",
   "theorems": [
    "Verif.Props.LsoFile.shared_read_partial",
    "Verif.Props.LsoFile.beyond_uniques_ub",
    "Verif.Props.LsoFile.mixed_ub",
    "Verif.Props.LsoFile.mixed_wrong",
    "Verif.Props.LsoFile.shared_not_read",
    "Verif.Props.LsoShared.shared_right_iff",
    "Verif.Props.LsoShared.shared_ub_iff"
   ],
   "note": "False: exactly the files in which all the lines up to those referred to are new points are right (shared_right_iff), as when the new vertices come first; among the others, exactly those with a shared vertex that refers to a line at or beyond the number of new points so far have undefined behaviour (shared_ub_iff), and the rest silently give the unique vertex of another line."
  },
  {
   "property": "C112",
   "status": "partial",
   "theorems": [
    "Verif.Props.LsoFile.regions_read_partial",
    "Verif.Props.LsoFile.regions_up_to",
    "Verif.Props.LsoFile.regions_not_read",
    "Verif.Props.LsoFile.nameless_ub",
    "Verif.Props.ExactMore.regions_read_iff"
   ],
   "note": "regions_up_to says, for all lines, which regions are read. False when another line lies between two regions (regions_read_iff): those after it are dropped."
  },
  {
   "property": "C113",
   "status": "proved",
   "theorems": [
    "Verif.Props.LsoFile.skipped",
    "Verif.Props.LsoFile.no_model"
   ],
   "note": "For every solid and lines."
  },
  {
   "property": "C114",
   "status": "partial",
   "theorems": [
    "Verif.Props.GocadClasses.classes_described_partial",
    "Verif.Props.GocadClasses.header_columns",
    "Verif.Props.GocadClasses.no_header",
    "Verif.Props.GocadClasses.two_words",
    "Verif.Props.GocadClasses.classes_not_described",
    "Verif.Props.GocadClasses.coordinate_name",
    "Verif.Props.ClassesExact.described",
    "Verif.Props.ClassesExact.described_iff"
   ],
   "note": "Proved for names of one word. False for names of several words, quoted when announced and not in the section: described says which classes have a section, for all names that the header keeps."
  },
  {
   "property": "C115",
   "status": "proved",
   "theorems": [
    "Verif.Props.MlFile.universe_listed",
    "Verif.Props.MlFile.region_listed",
    "Verif.Props.MlFile.layer_listed"
   ],
   "note": "For every model."
  },
  {
   "property": "C116",
   "status": "partial",
   "theorems": [
    "Verif.Props.MlFile.missing_words",
    "Verif.Props.MlFile.missing_words_partial",
    "Verif.Props.MlFile.missing_not_reported",
    "Verif.Props.MlFile.unknown_tsurf"
   ],
   "note": "False: it is undefined behaviour. missing_words_partial says exactly when, at every place of a section outside of the lists; a section with all its words has none there."
  },
  {
   "property": "C117",
   "status": "proved",
   "theorems": [
    "Verif.Props.MlCorners.model_starts_kept",
    "Verif.Props.MlCorners.starts_kept"
   ],
   "note": "For the models of GoodModel (see C60). starts_kept gives the records of a TSurf in order."
  },
  {
   "property": "C118",
   "status": "proved",
   "theorems": [
    "Verif.Props.MlCorners.corners_placed",
    "Verif.Props.MlCorners.corners_shared",
    "Verif.Props.MlCorners.corners_only",
    "Verif.Props.MlCorners.face_found",
    "Verif.Props.MlCorners.faces_distinct"
   ],
   "note": "The search of points at one place belongs to another library: what is relied on is Merges."
  },
  {
   "property": "C119",
   "status": "partial",
   "theorems": [
    "Verif.Props.MlCorners.stone_on_surface",
    "Verif.Props.MlCorners.start_on_surface",
    "Verif.Props.MlCorners.records_not_checked",
    "Verif.Props.MlCorners.stone_not_reported",
    "Verif.Props.MlCorners.border_not_reported",
    "Verif.Props.MlCorners.other_face_not_reported",
    "Verif.Props.ExactLast.Starts.start_checked_iff"
   ],
   "note": "False: numbers that are no vertex are undefined behaviour, and a next vertex of another face is a wrapped number. Whatever is read in a file otherwise is on its surface: stone_on_surface, start_on_surface. start_checked_iff: the next vertex of a line start is on its surface exactly when it is in the face of its first vertex."
  },
  {
   "property": "C12",
   "status": "partial",
   "theorems": [
    "Verif.Props.GocadTruncated.truncated_ts",
    "Verif.Props.GocadTruncated.truncated_vs",
    "Verif.Props.GocadTruncated.truncated_pl_not_reported",
    "Verif.Props.GocadTruncated.truncated_pl_accepted",
    "Verif.Props.GocadTruncated.truncated_pl_silent",
    "Verif.Props.GocadTruncated.truncated_pl_partial",
    "Verif.Props.GocadTruncated.midline_cut_is_ub"
   ],
   "note": "Proved for .ts and .vs files cut after any line. False of the code for .pl files cut inside the body (truncated_pl_not_reported) and for cuts inside a line (midline_cut_is_ub). truncated_pl_partial covers .pl files cut before the ILINE line of the first object."
  },
  {
   "property": "C120",
   "status": "partial",
   "theorems": [
    "Verif.Props.Registry.formats_iff",
    "Verif.Props.Registry.reachable_partial",
    "Verif.Props.Registry.not_all_reachable",
    "Verif.Props.Registry.stratigraphic_never",
    "Verif.Props.Registry.entry_once",
    "Verif.Props.Registry.nothing_ignored",
    "Verif.Props.Registry.found_fits"
   ],
   "note": "False: the reader of stratigraphic models is never registered. Proved for all the other classes, with distinct extensions in each factory."
  },
  {
   "property": "C121",
   "status": "partial",
   "theorems": [
    "Verif.Props.Registry.read_back_partial",
    "Verif.Props.Registry.not_all_read_back",
    "Verif.Props.Registry.never_read_back"
   ],
   "note": "False for .fem files and for boundary representations, which this library does not read. Proved for all the other kinds and extensions."
  },
  {
   "property": "C122",
   "status": "partial",
   "theorems": [
    "Verif.Props.Images.geo_level",
    "Verif.Props.Images.poly_level",
    "Verif.Props.Images.geo_level_partial",
    "Verif.Props.Images.geo_level_lost",
    "Verif.Props.Images.poly_level_lost",
    "Verif.Props.Images.level_stays_lost"
   ],
   "note": "False: an exception of the image library leaves the log at critical, for good. geo_level and poly_level say exactly when."
  },
  {
   "property": "C123",
   "status": "partial",
   "theorems": [
    "Verif.Props.Images.dem_recognised",
    "Verif.Props.Images.dem_refused",
    "Verif.Props.Images.geo_recognised",
    "Verif.Props.Images.poly_recognised_ub",
    "Verif.Props.Images.poly_refused",
    "Verif.Props.Images.poly_outcomes",
    "Verif.Props.Images.geo_outcomes",
    "Verif.Props.Images.percents"
   ],
   "note": "Proved for DEM and GeoTIFF, under Trusted. False for PolyTIFF: every image recognised is undefined behaviour (see C53)."
  },
  {
   "property": "C124",
   "status": "partial",
   "theorems": [
    "Verif.Props.Paths.well_named",
    "Verif.Props.Paths.companion_named",
    "Verif.Props.Paths.data_beside",
    "Verif.Props.Paths.path_whole",
    "Verif.Props.Paths.absolute_partial",
    "Verif.Props.Paths.absolute_moved",
    "Verif.Props.ExactRest.data_named_iff"
   ],
   "note": "Proved for names of wells and index files, and for data files named without separator. False for a data file named from the root: the directory is put before it. data_named_iff: the data file is the one named exactly when the first file is named without directory."
  },
  {
   "property": "C125",
   "status": "partial",
   "theorems": [
    "Verif.Props.Paths.directories_partial",
    "Verif.Props.Paths.directories_not_created",
    "Verif.Props.Paths.created_opens",
    "Verif.Props.Paths.created_exactly"
   ],
   "note": "False: the directory of the literal \"filename\" is created, which is none. created_opens: creating that of the file before opening it would do. directories_partial says that saving succeeds exactly in directories that exist."
  },
  {
   "property": "C126",
   "status": "partial",
   "theorems": [
    "Verif.Props.GeosFiles.files_distinct",
    "Verif.Props.GeosFiles.files_in_directory",
    "Verif.Props.GeosFiles.mesh_file_named",
    "Verif.Props.GeosFiles.boxes_named",
    "Verif.Props.GeosFiles.prefix_partial",
    "Verif.Props.GeosFiles.files_named_partial",
    "Verif.Props.GeosFiles.prefix_cut"
   ],
   "note": "Proved but for the prefix, which is cut at a dot of the name of the directory and empty when the directory is written with an ending separator."
  },
  {
   "property": "C127",
   "status": "partial",
   "theorems": [
    "Verif.Props.GeosFiles.box_read",
    "Verif.Props.GeosFiles.written_box_partial",
    "Verif.Props.GeosFiles.written_box_misses",
    "Verif.Props.Digits.small_box_partial",
    "Verif.Props.Digits.box_misses"
   ],
   "note": "Proved when the text of the bounds is exact, and for doubles when the bounds are at most 19. False in general: six digits are too few for the safety offset of a ten-thousandth; a box a thousand kilometres from the origin misses its perforation by four metres (box_misses)."
  },
  {
   "property": "C128",
   "status": "partial",
   "theorems": [
    "Verif.Props.Saveable.lso_saved_iff",
    "Verif.Props.Saveable.lso_saveable_partial",
    "Verif.Props.Saveable.lso_saveable_not_saved",
    "Verif.Props.Saveable.lso_reported_iff",
    "Verif.Props.LsoSaving.outcomes"
   ],
   "note": "False: surfaces in no collection throw, surfaces that touch no block are undefined behaviour. lso_saved_iff says exactly which sound models are saved."
  },
  {
   "property": "C129",
   "status": "partial",
   "theorems": [
    "Verif.Props.Saveable.ml_saved_iff",
    "Verif.Props.Saveable.ml_saveable_partial",
    "Verif.Props.Saveable.ml_saveable_not_saved",
    "Verif.Props.Saveable.ml_polygons",
    "Verif.Props.MlSaving.outcomes"
   ],
   "note": "False: two contact types, surfaces of other collections and surfaces without triangles. ml_saved_iff says, for every model, exactly when it is saved; polygons that are not triangles are always refused. MlSaving.outcomes says, for models without the two kinds of horizons, exactly when saving is undefined and when it throws."
  },
  {
   "property": "C13",
   "status": "partial",
   "theorems": [
    "Verif.Props.GocadText.unclosed_not_reported",
    "Verif.Props.GocadText.unclosed_is_ub",
    "Verif.Props.GocadText.closed_ok_partial",
    "Verif.Props.GocadText.cover",
    "Verif.Props.QuotesExact.unclosed_iff",
    "Verif.Props.QuotesExact.split_iff",
    "Verif.Props.QuotesExact.never_reported"
   ],
   "note": "False of the code (unclosed_not_reported): the missing closing quote is undefined behaviour. closed_ok_partial covers every line whose quotes are closed; cover shows that lines are of one kind or the other. unclosed_iff: splitting is undefined exactly when a quotation is not closed, also after quotations that are; split_iff says what the other lines give, and no exception is ever raised."
  },
  {
   "property": "C130",
   "status": "partial",
   "theorems": [
    "Verif.Props.LsoCut.cut_reported_partial",
    "Verif.Props.LsoCut.cut_loads",
    "Verif.Props.LsoCut.cut_not_reported",
    "Verif.Props.LsoCut.cut_ends",
    "Verif.Props.ExactRest.cut_loaded_iff"
   ],
   "note": "False: a file cut after its line MODEL is loaded without some of its surfaces and blocks (cut_loads says which blocks are left), a file cut in the vertices is undefined behaviour. Files cut before the line MODEL are never loaded. cut_loaded_iff: a file cut at the end of a line is loaded exactly when its line MODEL is left."
  },
  {
   "property": "C131",
   "status": "partial",
   "theorems": [
    "Verif.Props.LsoCut.ends_partial",
    "Verif.Props.LsoCut.cut_unfinished",
    "Verif.Props.LsoCut.whole_unfinished",
    "Verif.Props.LsoCut.not_ends",
    "Verif.Props.LsoCut.cut_ends_unfinished",
    "Verif.Props.ExactFiles.endless_iff"
   ],
   "note": "False: a file that ends after SURFACE, TFACE or MODEL_REGION without a line feed is read for ever. ends_partial: reading ends for all other texts (also excepting a last line MODEL), cut_unfinished says what happens to every saved file that is cut. endless_iff: exactly which of these cut files are read for ever."
  },
  {
   "property": "C132",
   "status": "partial",
   "theorems": [
    "Verif.Props.GrdeclUnfinished.feed_irrelevant_partial",
    "Verif.Props.GrdeclUnfinished.feed_relevant",
    "Verif.Props.GrdeclUnfinished.pillars_cut",
    "Verif.Props.GrdeclUnfinished.pillarsEnd_throw",
    "Verif.Props.GrdeclUnfinished.depths_cut",
    "Verif.Props.GrdeclUnfinished.load_true",
    "Verif.Props.GrdeclUnfinished.readData_feed",
    "Verif.Props.GrdeclUnfinished.one_line",
    "Verif.Props.DataFeed.data_feed_iff"
   ],
   "note": "Proved for grids that load and do not end with an INCLUDE, and for data files of two lines or more. False otherwise: a grid cut in its pillars or depths writes out of bounds instead of reading for ever, and a data file of one line takes it for the line of names. data_feed_iff: the line feed of a data file matters exactly when it has one line, of four words or more."
  },
  {
   "property": "C133",
   "status": "proved",
   "theorems": [
    "Verif.Props.MlAtoms.objects_numbered",
    "Verif.Props.MlAtoms.vertices_numbered",
    "Verif.Props.MlAtoms.named_exist"
   ],
   "note": "For every TSurf written."
  },
  {
   "property": "C134",
   "status": "proved",
   "theorems": [
    "Verif.Props.TSurf.loadTS_terminates",
    "Verif.Props.GocadEnds.loadPL_terminates",
    "Verif.Props.VSet.loadVS_terminates"
   ],
   "note": ""
  },
  {
   "property": "C135",
   "status": "proved",
   "theorems": [
    "Verif.Props.MlUniques.vertices_placed",
    "Verif.Props.MlUniques.own_vertices",
    "Verif.Props.MlUniques.lines_numbered"
   ],
   "note": "The comparison of points is a parameter, as are the borders. For corners of surfaces among those of the model, as they are when made (C119)."
  },
  {
   "property": "C136",
   "status": "proved",
   "theorems": [
    "Verif.Props.MlUniques.corners_end_lines",
    "Verif.Props.MlUniques.lone_corner",
    "Verif.Props.MlUniques.search_points"
   ],
   "note": "For lines that could be made."
  },
  {
   "property": "C137",
   "status": "partial",
   "theorems": [
    "Verif.Props.MlUniques.pieces_tied_partial",
    "Verif.Props.MlUniques.pieces_not_tied",
    "Verif.Props.MlExactLines.pieces_tied_iff",
    "Verif.Props.ColumnsSorted.pieces_sorted",
    "Verif.Props.ColumnsSorted.pieces_together"
   ],
   "note": "Proved for two lines or more, none met more than twice. False for a single line: nothing is tied (its vertices are found later by their place). pieces_tied_iff: exactly when there is not a single one. pieces_together: the pieces of one line are next to each other when they are tied."
  },
  {
   "property": "C138",
   "status": "proved",
   "theorems": [
    "Verif.Props.LsoInspect.inspected",
    "Verif.Props.LsoInspect.blocks_read",
    "Verif.Props.LsoInspect.conformal_not_inspected"
   ],
   "note": "The third reason of inspection, a line that does not split a surface, is found after the lines are built: see C143."
  },
  {
   "property": "C139",
   "status": "partial",
   "theorems": [
    "Verif.Props.BrepFemFile.mesh_saved_iff",
    "Verif.Props.BrepFemFile.mesh_ub",
    "Verif.Props.BrepFemFile.mesh_throws"
   ],
   "note": "mesh_saved_iff says, for every mesh, exactly when it is saved. False when elements have names of blocks, or when a scalar property of the nodes has fewer values than there are elements: undefined behaviour."
  },
  {
   "property": "C14",
   "status": "proved",
   "theorems": [
    "Verif.Props.GocadText.values_read",
    "Verif.Props.GocadText.extra_ignored",
    "Verif.Props.GocadText.missing_reported",
    "Verif.Props.GocadText.short_vertex_line_throws",
    "Verif.Props.ColumnsSorted.no_column"
   ],
   "note": "no_column: with a property without column, reading is undefined."
  },
  {
   "property": "C140",
   "status": "partial",
   "theorems": [
    "Verif.Props.BrepFemFile.every_model_ub",
    "Verif.Props.BrepFemFile.saveable_iff",
    "Verif.Props.BrepFemFile.saveable_not_saved",
    "Verif.Props.BrepFemFile.model_saved_partial",
    "Verif.Props.BrepFemFile.model_saved_iff"
   ],
   "note": "False of every model with a polyhedron: the polyhedra are given names, whose sets are undefined behaviour. model_saved_partial: a sound model is saved but for these sets. The conversion into a solid is a parameter."
  },
  {
   "property": "C141",
   "status": "partial",
   "theorems": [
    "Verif.Props.Additional.grdecl_unlisted",
    "Verif.Props.Additional.grdecl_listed_partial",
    "Verif.Props.Additional.grdecl_depends",
    "Verif.Props.Additional.vo_unlisted",
    "Verif.Props.Additional.vo_listed_partial",
    "Verif.Props.Additional.vo_depends"
   ],
   "note": "False: included files of .grdecl files are not listed, and the data file of a .vo file is listed without its folder. grdecl_depends and vo_depends say what the result depends on. The models of the other readers have no other file."
  },
  {
   "property": "C142",
   "status": "proved",
   "theorems": [
    "Verif.Props.MlCut.cut_file",
    "Verif.Props.MlCut.cut_same",
    "Verif.Props.MlCut.saved_cut",
    "Verif.Props.MlCut.missing_mesh",
    "Verif.Props.MlCorners.missing_data"
   ],
   "note": "No model: an exception, or no end inside a list of numbers (C41). For cuts between lines. The saved models are those of the round trip."
  },
  {
   "property": "C143",
   "status": "proved",
   "theorems": [
    "Verif.Props.LsoWhole.whole_inspected",
    "Verif.Props.LsoWhole.added_lines",
    "Verif.Props.LsoWhole.loaded_or_reported",
    "Verif.Props.LsoWhole.surfaces_known",
    "Verif.Props.LsoWhole.fin_inspected",
    "Verif.Props.LsoWhole.finSplit_not_inspected",
    "Verif.Props.LsoWhole.finOne_reported"
   ],
   "note": "The mesh library is a parameter: it gives the borders of the surfaces, and is assumed to follow them edge by edge."
  },
  {
   "property": "C144",
   "status": "proved",
   "theorems": [
    "Verif.Props.MlWhole.whole_vertices",
    "Verif.Props.MlWhole.whole_merged",
    "Verif.Props.MlWhole.whole_corners",
    "Verif.Props.MlWhole.shared_edge"
   ],
   "note": "The merging of points is a parameter, assumed to keep a point near each point and to treat equal points alike. For files of less than 2^32 lines."
  },
  {
   "property": "C145",
   "status": "partial",
   "theorems": [
    "Verif.Props.MlWhole.models_loaded",
    "Verif.Props.MlWhole.borders_kept",
    "Verif.Props.MlWhole.one_corner_refused"
   ],
   "note": "False for models where a border with one corner meets another border elsewhere (one_corner_refused). Proved when at most one border vertex is at the place of a vertex inside a surface or on a border with one corner, and no three border edges of a surface are at one place; without the first condition loading may be refused, and keeps the borders otherwise."
  },
  {
   "property": "C146",
   "status": "proved",
   "theorems": [
    "Verif.Props.LsoIndicators.sections_skipped"
   ],
   "note": "A section is removed when the line after it does not open one and is not a vertex, respectively not a tetrahedron. Files whose last line has no line end are covered as if it had one."
  },
  {
   "property": "C147",
   "status": "partial",
   "theorems": [
    "Verif.Props.GocadHeaders.header_read",
    "Verif.Props.GocadHeaders.header_refused",
    "Verif.Props.GocadHeaders.key_names_fail",
    "Verif.Props.GocadHeaders.key_names_partial",
    "Verif.Props.ExactLast.key_names_iff"
   ],
   "note": "False: any line with `name:` in it gives the name, such as one with the key `colormap_name`, and the last one counts (key_names_fail). header_read says which name is read in all cases. key_names_iff says exactly when the line with the key gives the name."
  },
  {
   "property": "C148",
   "status": "partial",
   "theorems": [
    "Verif.Props.GocadHeaders.crs_read",
    "Verif.Props.GocadHeaders.crs_readable",
    "Verif.Props.GocadHeaders.crs_kept_fails",
    "Verif.Props.GocadHeaders.crs_kept_partial"
   ],
   "note": "False for the names and units of the axes, which are written and never read (crs_kept_fails). Lines without a word, and keys without value, are undefined behaviour (crs_readable gives the sections that are read)."
  },
  {
   "property": "C149",
   "status": "partial",
   "theorems": [
    "Verif.Props.VoxetGrid.grid_read",
    "Verif.Props.VoxetGrid.grid_ub",
    "Verif.Props.VoxetGrid.grid_outcomes",
    "Verif.Props.VoxetGrid.vector_axes_fail",
    "Verif.Props.VoxetGrid.vector_axes_partial",
    "Verif.Props.VoxetGrid.size_found_fails",
    "Verif.Props.VoxetGrid.size_found_partial"
   ],
   "note": "False: the axes, vectors in the GOCAD format, are taken for points, so that cell lengths are wrong unless the origin is zero (vector_axes_fail), and an AXIS_NAME line before the size is taken for it (size_found_fails). grid_read says which grid is read in all cases; a size line without three numbers is undefined behaviour (grid_ub). That the axes are vectors is a fact about the format, not stated in the code."
  },
  {
   "property": "C15",
   "status": "proved",
   "theorems": [
    "Verif.Props.GocadBody.atom_copies",
    "Verif.Props.GocadBody.atom_forward_throws"
   ],
   "note": ""
  },
  {
   "property": "C150",
   "status": "partial",
   "theorems": [
    "Verif.Props.VoxetGrid.head_parts",
    "Verif.Props.VoxetGrid.depths_read_fail",
    "Verif.Props.VoxetGrid.depths_read_partial",
    "Verif.Props.ExactOrigins.depths_iff"
   ],
   "note": "False: the coordinate system is read and not used (depths_read_fail). True for coordinate systems in elevation.  depths_iff: for any file that is loaded, the coordinate is right exactly when the third axis points upwards or the coordinate is its own opposite."
  },
  {
   "property": "C151",
   "status": "partial",
   "theorems": [
    "Verif.Props.GocadStable.ts_stable",
    "Verif.Props.GocadStable.ts_reload",
    "Verif.Props.GocadStable.vs_stable",
    "Verif.Props.GocadStable.vs_reload",
    "Verif.Props.GocadStable.pl_stable",
    "Verif.Props.PLineStable.pl_kept_stable",
    "Verif.Props.GocadStable.pl_properties_lost",
    "Verif.Props.GocadStable.pl_loop_changes",
    "Verif.Props.GocadStable.order_matters",
    "Verif.Props.Digits.ts_saved_again",
    "Verif.Props.Digits.vs_saved_again"
   ],
   "note": "Proved for surfaces and for point sets, and for curves without properties that have no closed loop, or whose segments are kept by saving and loading (pl_kept_stable, vertices being at different points; PLineLoops.round_trip_iff says which curves these are). False for the other curves: properties are written and not read (pl_properties_lost), and closed loops that are not kept change (pl_loop_changes). Formatting is assumed to be settled: writing what was read from a written number gives the same text (class Settled); this is proved for doubles written with six digits (Digits.ts_saved_again, Digits.vs_saved_again)."
  },
  {
   "property": "C152",
   "status": "proved",
   "theorems": [
    "Verif.Props.GrdeclGrid.grid_loaded",
    "Verif.Props.GrdeclGrid.shared_vertices",
    "Verif.Props.GrdeclGrid.shared_facets",
    "Verif.Props.GrdeclGrid.vertices_shared",
    "Verif.Props.GrdeclGrid.throws"
   ],
   "note": "The merging of points is a parameter, assumed to keep each point once when no two points are near without being equal. Exact arithmetic in throws, for pillars that are not horizontal. Grids of less than 2^32 depths and pillars."
  },
  {
   "property": "C153",
   "status": "partial",
   "theorems": [
    "Verif.Props.VoxetData.data_loaded",
    "Verif.Props.VoxetData.data_values",
    "Verif.Props.VoxetData.data_ub",
    "Verif.Props.VoxetData.data_outcomes",
    "Verif.Props.VoxetData.no_titles",
    "Verif.Props.VoxetData.voxet_loaded"
   ],
   "note": "All outcomes are described for grids of less than 2^32 cells. Partial: a line about a cell outside of the grid is undefined behaviour, not an exception (data_ub says exactly when)."
  },
  {
   "property": "C154",
   "status": "partial",
   "theorems": [
    "Verif.Props.WellOutcomes.dev_loads_iff",
    "Verif.Props.WellOutcomes.dev_loads_partial",
    "Verif.Props.WellOutcomes.dev_refused_partial",
    "Verif.Props.WellOutcomes.dev_few_titles",
    "Verif.Props.WellOutcomes.dev_titles_missing",
    "Verif.Props.WellOutcomes.dev_title_beyond",
    "Verif.Props.WellOutcomes.dev_title_repeated",
    "Verif.Props.WellOutcomes.dev_title_repeated_ub"
   ],
   "note": "True when each of X, Y and Z is titled once and there is a row (dev_loads_partial, dev_refused_partial). False otherwise: without one of the titles, positions never assigned are compared (dev_titles_missing), and with a title twice the rows that load have one number less and go to the wrong attributes, or are read out of bounds (dev_title_repeated, dev_title_repeated_ub). dev_loads_iff says which surveys load for all titles. Surveys of at most 2^32 rows, one line of titles between the rules."
  },
  {
   "property": "C155",
   "status": "partial",
   "theorems": [
    "Verif.Props.WlOutcomes.wl_loads_iff",
    "Verif.Props.WlOutcomes.wl_outcomes_partial",
    "Verif.Props.WlOutcomes.wl_bad_record",
    "Verif.Props.WlOutcomes.records_checked_fails"
   ],
   "note": "wl_loads_iff says which files load, wl_outcomes_partial that the others are refused unless a line of the coordinate system cannot be read, which is undefined behaviour. False: the first record is not looked at, nor are those after a line that is not a record (records_checked_fails)."
  },
  {
   "property": "C156",
   "status": "proved",
   "theorems": [
    "Verif.Props.CurveOutcomes.curve_loads_iff",
    "Verif.Props.CurveOutcomes.objects_unique",
    "Verif.Props.CurveOutcomes.curve_outcomes_partial"
   ],
   "note": "The headers and the coordinate systems are described by C147 and C148. curve_outcomes_partial: the files of complete lines that do not load are refused, unless an object has a number that is none of its vertices (C159); incomplete lines are undefined behaviour, see C172."
  },
  {
   "property": "C157",
   "status": "proved",
   "theorems": [
    "Verif.Props.PointSetOutcomes.points_load_iff",
    "Verif.Props.PointSetOutcomes.objects_unique",
    "Verif.Props.PointSetOutcomes.points_outcomes"
   ],
   "note": "The headers and the coordinate systems are described by C147 and C148; the property headers by their reader. points_outcomes: the files of complete lines without properties that do not load are refused; incomplete lines are undefined behaviour, see C16."
  },
  {
   "property": "C158",
   "status": "proved",
   "theorems": [
    "Verif.Props.SurfaceOutcomes.surface_loads_iff",
    "Verif.Props.SurfaceOutcomes.objects_unique",
    "Verif.Props.SurfaceOutcomes.surface_outcomes_partial"
   ],
   "note": "The headers and the coordinate systems are described by C147 and C148; the property headers by their reader. surface_outcomes_partial: the files of complete lines without properties that do not load are refused, unless an object has a triangle with a number that is none of its vertices (C159); C172 is about the other files."
  },
  {
   "property": "C159",
   "status": "partial",
   "theorems": [
    "Verif.Props.CurveOutcomes.own_vertices_fails",
    "Verif.Props.CurveOutcomes.own_vertices_partial",
    "Verif.Props.CurveOutcomes.first_object",
    "Verif.Props.CurveOutcomes.joined_loads",
    "Verif.Props.CurveOutcomes.first_object_ub",
    "Verif.Props.CurveOutcomes.earlier_vertex",
    "Verif.Props.SurfaceOutcomes.own_vertices_fails",
    "Verif.Props.SurfaceOutcomes.own_vertices_partial",
    "Verif.Props.SurfaceOutcomes.first_object",
    "Verif.Props.SurfaceOutcomes.joined_loads",
    "Verif.Props.SurfaceOutcomes.first_object_ub"
   ],
   "note": "False: a number before the first vertex of an object is a vertex of the object before (joined_loads). True for the first object of a file (first_object) and, in the others, for the numbers that are not before the first vertex (own_vertices_partial). Files of at most 2^32 vertices."
  },
  {
   "property": "C16",
   "status": "partial",
   "theorems": [
    "Verif.Props.GocadUb.ub_reachable",
    "Verif.Props.GocadUb.blank_line_ts",
    "Verif.Props.GocadUb.blank_line_vs",
    "Verif.Props.GocadUb.blank_line_pl",
    "Verif.Props.GocadUb.dangling_triangle",
    "Verif.Props.GocadUb.no_ub_ts_partial",
    "Verif.Props.GocadUb.no_ub_vs_partial",
    "Verif.Props.GocadUb.no_ub_pl_partial",
    "Verif.Props.GocadRefused.surface_ub_iff",
    "Verif.Props.GocadRefused.points_ub_iff",
    "Verif.Props.GocadRefused.curve_ub_iff"
   ],
   "note": "False of the code (ub_reachable): a blank line is undefined behaviour. The _partial theorems cover files of complete lines without property header whose cells name existing vertices; C172 says for every file when there is undefined behaviour."
  },
  {
   "property": "C160",
   "status": "proved",
   "theorems": [
    "Verif.Props.GocadFiles.Curve.curve_append",
    "Verif.Props.GocadFiles.Surface.surface_append",
    "Verif.Props.GocadFiles.Points.points_append",
    "Verif.Props.GocadFiles.Surface.saved_append"
   ],
   "note": "Attributes are the subject of C07. saved_append: the case of two saved surfaces."
  },
  {
   "property": "C161",
   "status": "partial",
   "theorems": [
    "Verif.Props.GocadFiles.Curve.one_each_fails",
    "Verif.Props.GocadFiles.Curve.one_each_partial",
    "Verif.Props.GocadFiles.Curve.noIline_loads",
    "Verif.Props.GocadFiles.Curve.noEnd_loads",
    "Verif.Props.GocadFiles.Surface.one_each_fails",
    "Verif.Props.GocadFiles.Surface.one_each_partial",
    "Verif.Props.GocadFiles.Surface.noTface_loads",
    "Verif.Props.GocadFiles.Points.one_each_fails",
    "Verif.Props.GocadFiles.Points.one_each_partial",
    "Verif.Props.GocadFiles.Points.noPoint_loads"
   ],
   "note": "False: the sections are searched beyond the object, so that an object without ILINE, TFACE or vertex takes those of the next one, whose name is lost (one_each_fails), and without END the segments of the next one join the vertices of the first (noEnd_loads). True when the file is made of parts with one title that can be read alone; there are never more objects than titles (one_each_partial)."
  },
  {
   "property": "C162",
   "status": "partial",
   "theorems": [
    "Verif.Props.PropHeaders.header_iff",
    "Verif.Props.PropHeaders.quoted_iff",
    "Verif.Props.PropHeaders.quoted_ub",
    "Verif.Props.PropHeaders.header_outcomes_partial",
    "Verif.Props.PropHeaders.one_unit_ub",
    "Verif.Props.PropHeaders.no_unit_throws"
   ],
   "note": "header_iff says which headers are read and what they give. False for the exception: with less entries than properties, or a quotation that is not closed, the words are read out of bounds (one_unit_ub, quoted_ub); header_outcomes_partial gives the exception in the other cases."
  },
  {
   "property": "C163",
   "status": "proved",
   "theorems": [
    "Verif.Props.LsoOutcomes.lso_loads_iff",
    "Verif.Props.LsoOutcomes.small_loads"
   ],
   "note": "The header and the coordinate system are described by C147 and C148, the property headers by C162, the relations between blocks and surfaces by C65 and C143, and the values of the properties by C46 and C84. small_loads is a test."
  },
  {
   "property": "C164",
   "status": "proved",
   "theorems": [
    "Verif.Props.MlOutcomes.ml_loads_iff",
    "Verif.Props.MlOutcomes.closeBlock_iff",
    "Verif.Props.MlOutcomes.groups_of_loaded",
    "Verif.Props.MlOutcomes.two_loads"
   ],
   "note": "The header and the coordinate system are described by C147 and C148, the corners and lines by C97 to C104 and C118. closeBlock_iff: a surface named an odd number of times by a region bounds it and each pair of names makes it internal, but for the last surface, which must be named once or in pairs to be related to the region as often as named. two_loads is a test."
  },
  {
   "property": "C165",
   "status": "partial",
   "theorems": [
    "Verif.Props.MlOutcomes.found_by_name_fails",
    "Verif.Props.MlOutcomes.found_by_name_partial",
    "Verif.Props.MlOutcomes.swapped_loads"
   ],
   "note": "False: the names of the objects are not looked at, the k-th object is for the k-th group (swapped_loads, found_by_name_fails). found_by_name_partial: the meshes follow the groups, and every surface has exactly one."
  },
  {
   "property": "C166",
   "status": "proved",
   "theorems": [
    "Verif.Props.MlRelations.built_internals",
    "Verif.Props.MlRelations.lines_related",
    "Verif.Props.MlRelations.loose_iff"
   ],
   "note": "The meshes of the surfaces are given by their borders, C98 to C101 say which line each start gives. lines_related: the relations for any number of line starts on each line, less than two starts give none. The split of the meshes along internal lines is in another library."
  },
  {
   "property": "C167",
   "status": "partial",
   "theorems": [
    "Verif.Props.MlRelations.boundary_only_fails",
    "Verif.Props.MlRelations.boundary_only_partial"
   ],
   "note": "False when two vertices of a surface are at one place of a boundary line: the line is found at the second one and made internal. True when no vertex that is not reached is at the place of a line, for the lines with one start on a surface with at least two."
  },
  {
   "property": "C168",
   "status": "partial",
   "theorems": [
    "Verif.Props.MlRefused.refused_fails",
    "Verif.Props.MlRefused.refused_partial",
    "Verif.Props.MlRefused.ml_ub_iff",
    "Verif.Props.MlRefused.ml_diverge_iff",
    "Verif.Props.MlRefused.step_ub",
    "Verif.Props.MlRefused.create_defined"
   ],
   "note": "False: ml_ub_iff says which files have undefined behaviour (an incomplete line, the smallest integer in a list, a region with less than two numbers or with a number that is not of a surface, an object with less faces than its group or with a triangle between faces, an object that cannot be read, see C16 and C158) and ml_diverge_iff which files are read for ever (those that end inside a list). All the others load or are refused."
  },
  {
   "property": "C169",
   "status": "partial",
   "theorems": [
    "Verif.Props.LsoRefused.refused_fails",
    "Verif.Props.LsoRefused.refused_partial",
    "Verif.Props.LsoRefused.lso_ub_iff",
    "Verif.Props.LsoRefused.lso_ends",
    "Verif.Props.LsoRefused.vertex_ub",
    "Verif.Props.LsoRefused.tetra_ub",
    "Verif.Props.LsoRefused.surfaces_ub",
    "Verif.Props.LsoRefused.blocks_ub"
   ],
   "note": "False: lso_ub_iff says which files have undefined behaviour (a vertex, tetrahedron, triangle, surface or region whose line lacks words, the number of a vertex that does not exist or has no line of its own, no tetrahedron, fewer tetrahedra than vertices when tetrahedra have properties, a header that cannot be read, see C148 and C162). All the others load or are refused; for the text of the last line see C131."
  },
  {
   "property": "C17",
   "status": "proved",
   "theorems": [
    "Verif.Props.GocadText.object_name",
    "Verif.Props.GocadText.object_name_collapsed",
    "Verif.Props.GocadText.object_name_double_blank"
   ],
   "note": ""
  },
  {
   "property": "C170",
   "status": "partial",
   "theorems": [
    "Verif.Props.DevRefused.refused_fails",
    "Verif.Props.DevRefused.refused_partial",
    "Verif.Props.DevRefused.dev_ub_iff",
    "Verif.Props.DevRefused.dev_loads_iff_all",
    "Verif.Props.DevRefused.dev_ends",
    "Verif.Props.DevRefused.row_cases"
   ],
   "note": "False: dev_ub_iff says which files have undefined behaviour (a name line of less than four words, a first line of titles without X, Y or Z, no row, no line of titles and a first row of three words, a first faulty row with the column of a coordinate beyond its values). refused_partial: the other files that do not load are refused. dev_loads_iff_all extends C154 to any number of lines of titles."
  },
  {
   "property": "C171",
   "status": "partial",
   "theorems": [
    "Verif.Props.HeadersRefused.crs_ub_iff",
    "Verif.Props.HeadersRefused.header_ub_iff",
    "Verif.Props.HeadersRefused.system_refused_partial",
    "Verif.Props.HeadersRefused.system_refused_fails",
    "Verif.Props.HeadersRefused.header_refused_partial",
    "Verif.Props.HeadersRefused.header_refused_fails"
   ],
   "note": "False: crs_ub_iff says which coordinate systems have undefined behaviour (a blank line, or a line without the words or quotes it needs, before the end), header_ub_iff which property headers (a line of names, sizes, units, ranges or values with fewer entries than there are properties, or without the quotes it needs). All the others are read or refused."
  },
  {
   "property": "C172",
   "status": "partial",
   "theorems": [
    "Verif.Props.GocadRefused.curve_ub_iff",
    "Verif.Props.GocadRefused.points_ub_iff",
    "Verif.Props.GocadRefused.surface_ub_iff",
    "Verif.Props.GocadRefused.well_ub_iff",
    "Verif.Props.GocadRefused.curve_refused_partial",
    "Verif.Props.GocadRefused.points_refused_partial",
    "Verif.Props.GocadRefused.surface_refused_partial",
    "Verif.Props.GocadRefused.curve_refused_fails",
    "Verif.Props.GocadRefused.points_refused_fails",
    "Verif.Props.GocadRefused.surface_refused_fails",
    "Verif.Props.GocadRefused.well_refused_fails",
    "Verif.Props.GocadRefused.lso_header_iff",
    "Verif.Props.GocadRefused.ml_system_iff"
   ],
   "note": "False: the four _ub_iff theorems say, for every file, when loading has undefined behaviour (a header of C171, a blank line inside an object, a line without the words it needs, a segment or triangle with a vertex that is not loaded); lso_header_iff and ml_system_iff say it for the headers of C168 and C169. All the other files load or are refused (for wells with C155)."
  },
  {
   "property": "C173",
   "status": "partial",
   "theorems": [
    "Verif.Props.VoxetRefused.voxet_loads_iff",
    "Verif.Props.VoxetRefused.voxet_is",
    "Verif.Props.VoxetRefused.voxet_ub_iff",
    "Verif.Props.VoxetRefused.refused_partial",
    "Verif.Props.VoxetRefused.refused_fails",
    "Verif.Props.VoxetRefused.record_name",
    "Verif.Props.VoxetRefused.record_quoted",
    "Verif.Props.VoxetRefused.head_ub"
   ],
   "note": "False: voxet_ub_iff says which files have undefined behaviour (a coordinate system of C171, a size line without its words, a data line about a cell outside of the grid). voxet_loads_iff says which files load and voxet_is what is loaded; all the others are refused. For the line of a data file without a line feed at its end see C130 to C132."
  },
  {
   "property": "C174",
   "status": "partial",
   "theorems": [
    "Verif.Props.GrdeclRefused.grid_loads_iff",
    "Verif.Props.GrdeclRefused.grid_ub_iff",
    "Verif.Props.GrdeclRefused.grid_diverge_iff",
    "Verif.Props.GrdeclRefused.refused_partial",
    "Verif.Props.GrdeclRefused.refused_fails",
    "Verif.Props.GrdeclRefused.dims_iff",
    "Verif.Props.GrdeclRefused.dims_diverge",
    "Verif.Props.GrdeclRefused.pillars_ok",
    "Verif.Props.GrdeclRefused.pillars_ub",
    "Verif.Props.GrdeclRefused.pillars_diverge",
    "Verif.Props.GrdeclRefused.depths_cases"
   ],
   "note": "False: grid_ub_iff says which files have undefined behaviour (a pillar too many or an incomplete one, a depth too many or too few), grid_diverge_iff which are read for ever (no line with the letter of the dimensions, a section without an end), grid_loads_iff which load. All the others are refused."
  },
  {
   "property": "C175",
   "status": "partial",
   "theorems": [
    "Verif.Props.ShpRefused.shp_loads_iff",
    "Verif.Props.ShpRefused.shp_ub_iff",
    "Verif.Props.ShpRefused.shp_throw_iff",
    "Verif.Props.ShpRefused.refused_partial",
    "Verif.Props.ShpRefused.refused_fails"
   ],
   "note": "False: shp_ub_iff says which files have undefined behaviour (the first feature at fault has a part of a line of less than two points or a ring without point). shp_loads_iff and shp_throw_iff say which files load and which are refused; refused_partial is for the files without such parts and rings. GDAL is outside of the model: the layers and features are given."
  },
  {
   "property": "C176",
   "status": "partial",
   "theorems": [
    "Verif.Props.GeosRefused.prepare_iff",
    "Verif.Props.GeosRefused.brep_export_iff",
    "Verif.Props.GeosRefused.model_export_iff",
    "Verif.Props.GeosRefused.refused_partial",
    "Verif.Props.GeosRefused.refused_fails"
   ],
   "note": "False: a property asked for with another number of components than that of some block, or a block outside of all units, is undefined behaviour (brep_export_iff, model_export_iff). The property with the name of the regions is refused. refused_partial: without such properties and blocks the export is made or refused."
  },
  {
   "property": "C177",
   "status": "partial",
   "theorems": [
    "Verif.Props.MlStable.stable_partial",
    "Verif.Props.MlStable.stable_iff",
    "Verif.Props.MlStable.unstable",
    "Verif.Props.MlStable.stable_fails"
   ],
   "note": "False: surfaces in no collection come back in two model boundaries, one of their own and \"undefined boundary\", and no file saved from a model with these two loads (unstable, for any order of the boundaries). Proved for the models of GoodModel whose surfaces are all in a collection, and stable_iff: for no others. The sides of the surfaces and the line starts of the loaded model are given."
  },
  {
   "property": "C178",
   "status": "partial",
   "theorems": [
    "Verif.Props.LsoStable.stable_partial",
    "Verif.Props.LsoStable.stable_iff",
    "Verif.Props.LsoStable.bounded_iff",
    "Verif.Props.LsoStable.unstable",
    "Verif.Props.LsoStable.stable_fails",
    "Verif.Props.LsoStable.again_saved_iff",
    "Verif.Props.LsoStable.again_kept"
   ],
   "note": "False: a vertex of a block that no tetrahedron has is a unique vertex of the loaded model without block vertex, and saving that model is undefined; so it is when a block is loaded without boundary. Proved for the models of GoodModel (read back, blocks with one-word names and identifiers that differ) whose unique vertices are corners and whose blocks are loaded with a boundary; stable_iff: for no others. bounded_iff says which blocks have a boundary for surfaces without a common triangle. The sides of the surfaces, the identifiers of the blocks and the model boundaries made when loading are arbitrary."
  },
  {
   "property": "C179",
   "status": "partial",
   "theorems": [
    "Verif.Props.PLineLoops.saved_loads_iff",
    "Verif.Props.PLineLoops.saved_loads_partial",
    "Verif.Props.PLineLoops.saved_loads_fails"
   ],
   "note": "False: curves without edges are refused, and a loop whose first vertex has an index that is not less than the number of vertices of the file is undefined behaviour (saved_loads_iff, for every curve with an edge). saved_loads_partial: curves that do not have more vertices than edges load."
  },
  {
   "property": "C18",
   "status": "partial",
   "theorems": [
    "Verif.Props.Wells.list_loaded_partial",
    "Verif.Props.Wells.list_refused",
    "Verif.Props.Wells.list_wrong_count",
    "Verif.Props.Wells.list_cover",
    "Verif.Props.Wells.list_empty",
    "Verif.Props.ExactSmall.list_outcomes"
   ],
   "note": "Proved for every file with at least one line. False for the empty file (list_empty): the number of edges wraps to 2^32-1. list_outcomes says for every file which of the three outcomes it has."
  },
  {
   "property": "C180",
   "status": "proved",
   "theorems": [
    "Verif.Props.Digits.ts_close",
    "Verif.Props.Digits.vs_close",
    "Verif.Props.Digits.pl_close",
    "Verif.Props.Digits.lso_close",
    "Verif.Props.Digits.ml_close",
    "Verif.Props.Digits.close",
    "Verif.Props.Digits.kept_iff",
    "Verif.Props.Digits.valueClose"
   ],
   "note": "For doubles with unbounded exponent, %g with six digits and reading to the nearest double. Meshes and models that are read back (C01, C03, C04, C44, C58)."
  },
  {
   "property": "C181",
   "status": "partial",
   "theorems": [
    "Verif.Props.Digits.stay_apart_partial",
    "Verif.Props.Digits.far_triangle",
    "Verif.Props.Digits.not_apart"
   ],
   "note": "False: the corners of a triangle with sides of three and four metres, with northing 6894770, become one point (far_triangle). Proved when any two vertices differ, in some coordinate, by more than one part in 199999 of the sum of the two."
  },
  {
   "property": "C182",
   "status": "partial",
   "theorems": [
    "Verif.Props.Digits.fem_values",
    "Verif.Props.Digits.digits_kept_partial",
    "Verif.Props.Digits.small_values",
    "Verif.Props.Digits.permeability",
    "Verif.Props.Digits.digits_not_kept"
   ],
   "note": "False: std::to_string writes six digits after the point, and values below half a millionth, such as permeabilities in square metres, are written 0.000000 (small_values). Proved for values from a tenth on; every value is written within half a millionth (fem_values)."
  },
  {
   "property": "C183",
   "status": "proved",
   "theorems": [
    "Verif.Props.LineEnds.windows_loaded",
    "Verif.Props.LineEnds.windows_grids",
    "Verif.Props.LineEnds.recognised_line_ends"
   ],
   "note": "With geode::string_split cutting at carriage returns, an assumption on OpenGeode. The data file announced for a VO file of Windows is not the one that is read: see C22."
  },
  {
   "property": "C184",
   "status": "partial",
   "theorems": [
    "Verif.Props.LineEnds.gocad_line_ends",
    "Verif.Props.LineEnds.well_line_ends",
    "Verif.Props.LineEnds.ml_line_ends",
    "Verif.Props.LineEnds.lso_line_ends",
    "Verif.Props.LineEnds.grdecl_line_ends",
    "Verif.Props.LineEnds.voxet_line_ends",
    "Verif.Props.LineEnds.voxet_blank",
    "Verif.Props.LineEnds.recognised_line_ends"
   ],
   "note": "False for VO files: a blank after the name of the data file is taken as part of the name, and the file is not found (voxet_blank). Proved for all other formats, and for VO files with carriage returns in the header file and any blanks in the data file."
  },
  {
   "property": "C185",
   "status": "partial",
   "theorems": [
    "Verif.Props.Comments.mesh_comments_partial",
    "Verif.Props.Comments.well_comments_partial",
    "Verif.Props.Comments.voxet_comments_partial",
    "Verif.Props.Comments.comments_do_harm",
    "Verif.Props.Comments.comments_not_ignored",
    "Verif.Props.Comments.well_cut"
   ],
   "note": "False: a comment before the coordinate system makes elevations of depths, one before the property header loses the properties, one with \"name:\" in the header renames the object (comments_do_harm), and one in the path of a well cuts the well (well_cut), all without a report. Proved for comments without \"name:\" and quotes at all other places: not right after a title, the end of a header, the end of a coordinate system or a record of the path of a well."
  },
  {
   "property": "C186",
   "status": "partial",
   "theorems": [
    "Verif.Props.Priorities.decided_partial",
    "Verif.Props.Priorities.columns_not_decided",
    "Verif.Props.Priorities.readers_have_priorities",
    "Verif.Props.Priorities.images_are_surfaces",
    "Verif.Props.Priorities.stratigraphic_decided",
    "Verif.Props.PrioritiesExact.decided_iff"
   ],
   "note": "False: the readers of stratigraphic columns of the plane and of the space have the same extension and the same priority (columns_not_decided). Proved for all other extensions. decided_iff: this is the only pair of readers that nothing decides between."
  },
  {
   "property": "C187",
   "status": "partial",
   "theorems": [
    "Verif.Props.FemNan.all_listed_iff",
    "Verif.Props.FemNan.numbers_listed",
    "Verif.Props.FemNan.nan_ub_iff",
    "Verif.Props.FemNan.same_without_nan",
    "Verif.Props.FemNan.one_missing"
   ],
   "note": "False whenever a value is NaN (all_listed_iff): with two different numbers beside it the values are sorted with an order that is not one, which is undefined behaviour (nan_ub_iff); otherwise the elements of NaN are in no line (numbers_listed). Proved for values without NaN, for which the file is that of C33 (same_without_nan)."
  },
  {
   "property": "C188",
   "status": "partial",
   "theorems": [
    "Verif.Props.LsoToMl.converted_partial",
    "Verif.Props.LsoToMl.converted_iff",
    "Verif.Props.LsoToMl.never_converted",
    "Verif.Props.LsoToMl.groups_loaded",
    "Verif.Props.LsoToMl.boundary_refused",
    "Verif.Props.LsoToMl.not_always_converted",
    "Verif.Props.LsoToMl.surfaces_sorted"
   ],
   "note": "All surfaces of a .lso file are in horizons. False as soon as the library makes a model boundary of some of them (converted_iff): a surface in a model boundary and in a horizon is announced once, in the model boundary, and a horizon that is left without surface makes the file unreadable (boundary_refused). Proved when no model boundary is made."
  },
  {
   "property": "C189",
   "status": "partial",
   "theorems": [
    "Verif.Props.ShpRecognise.tells_partial",
    "Verif.Props.ShpRecognise.something_iff",
    "Verif.Props.ShpRecognise.not_recognised",
    "Verif.Props.ShpRecognise.recognised_empty",
    "Verif.Props.ShpRecognise.recognised_refused",
    "Verif.Props.ShpRecognise.does_not_tell"
   ],
   "note": "False: any file with a layer is recognised, also when no layer has a known type (recognised_empty) or when it is refused (recognised_refused). For files that load the exact condition is given (tells_partial)."
  },
  {
   "property": "C19",
   "status": "partial",
   "theorems": [
    "Verif.Props.Wells.dev_loaded_partial",
    "Verif.Props.Wells.dev_attribute_partial",
    "Verif.Props.Wells.dev_wrong_row",
    "Verif.Props.Wells.dev_no_rows",
    "Verif.Props.Wells.dev_missing_title",
    "Verif.Props.Wells.dev_no_titles"
   ],
   "note": "Proved for every column order and any positive number of rows, X, Y, Z appearing once each. False without rows (dev_no_rows) and without one of the titles (dev_missing_title): undefined behaviour."
  },
  {
   "property": "C190",
   "status": "partial",
   "theorems": [
    "Verif.Props.GrdeclOrder.order_partial",
    "Verif.Props.GrdeclOrder.load_pieces",
    "Verif.Props.GrdeclOrder.depths_first",
    "Verif.Props.GrdeclOrder.order_matters"
   ],
   "note": "False: the depths are looked for from the end of the pillars on, and a file whose depths come first is refused (depths_first). Proved when a section of depths follows the first section of pillars: the dimensions may then be anywhere."
  },
  {
   "property": "C191",
   "status": "partial",
   "theorems": [
    "Verif.Props.GrdeclOrder.notation_partial",
    "Verif.Props.GrdeclOrder.pillars_notation",
    "Verif.Props.GrdeclOrder.notation_fails",
    "Verif.Props.GrdeclOrder.strict_int"
   ],
   "note": "False: notation_partial says, for every way to write the depths, which ones are read (numbers only, with the slash at the beginning of a line); all the others are refused, none is misread. It assumes that words with a star, a slash or two dashes in front are not numbers (Strict)."
  },
  {
   "property": "C192",
   "status": "partial",
   "theorems": [
    "Verif.Props.GrdeclOrder.others_partial",
    "Verif.Props.GrdeclOrder.longer_keyword_refused",
    "Verif.Props.GrdeclOrder.others_matter"
   ],
   "note": "False: a line that only starts with the letters of a keyword is taken for it, so that a COORDSYS section makes the file refused. Proved for lines that do not start with the letters of a keyword."
  },
  {
   "property": "C193",
   "status": "partial",
   "theorems": [
    "Verif.Props.Spacing.gocad_spacing_partial",
    "Verif.Props.Spacing.well_spacing_partial",
    "Verif.Props.Spacing.model_spacing_partial",
    "Verif.Props.Spacing.grdecl_spacing_partial",
    "Verif.Props.Spacing.voxet_spacing_partial",
    "Verif.Props.Spacing.title_matters",
    "Verif.Props.Spacing.indentation_matters",
    "Verif.Props.Spacing.data_file_matters",
    "Verif.Props.Spacing.not_onlyWords"
   ],
   "note": "False for the lines that start with GOCAD, with the name of the data file of a Voxet or with the title of a deviation survey, which are compared as text (title_matters: the reader then finds no object), and for blanks before a keyword that is looked for (indentation_matters). Proved for all other lines, with or without blanks before both; for corner point grids without included files."
  },
  {
   "property": "C194",
   "status": "partial",
   "theorems": [
    "Verif.Props.GocadNumbers.surface_numbers_partial",
    "Verif.Props.GocadNumbers.curve_numbers_partial",
    "Verif.Props.GocadNumbers.surface_numbers_iff",
    "Verif.Props.GocadNumbers.curve_numbers_iff",
    "Verif.Props.GocadNumbers.gap_always",
    "Verif.Props.GocadNumbers.gap_undefined",
    "Verif.Props.GocadNumbers.swapped_wrong",
    "Verif.Props.GocadNumbers.solid_numbers_ignored",
    "Verif.Props.GocadNumbers.solid_swapped",
    "Verif.Props.GocadNumbers.not_anyNumbers"
   ],
   "note": "False: only the number of the first vertex of a surface or curve is read, and none in a solid (solid_numbers_ignored). Exactly the vertices whose number is that of the first one plus their rank are right (surface_numbers_iff, curve_numbers_iff); a gap before a vertex in use is undefined behaviour (gap_always), and numbers in another order silently give other triangles (swapped_wrong). Proved for consecutive numbers."
  },
  {
   "property": "C195",
   "status": "partial",
   "theorems": [
    "Verif.Props.MlAnyNumbers.component_numbers_partial",
    "Verif.Props.MlAnyNumbers.region_numbers_iff",
    "Verif.Props.MlAnyNumbers.component_numbers_ignored",
    "Verif.Props.MlAnyNumbers.swapped_wrong",
    "Verif.Props.MlAnyNumbers.not_anyComponentNumbers"
   ],
   "note": "False: the numbers of the records are never read (component_numbers_ignored, for all files with a header as written by the library) and the numbers of lists are taken as ranks. Exactly the regions whose surfaces have their own ranks, or each the rank of the other, are right (region_numbers_iff); the others silently get other surfaces (swapped_wrong) or undefined behaviour. Proved for surfaces numbered by their ranks."
  },
  {
   "property": "C196",
   "status": "partial",
   "theorems": [
    "Verif.Props.MlOrder.order_partial",
    "Verif.Props.MlOrder.layers_last",
    "Verif.Props.MlOrder.layer_blind",
    "Verif.Props.MlOrder.layer_emptied",
    "Verif.Props.MlOrder.not_anyOrder",
    "Verif.Props.MlOrderExact.order_iff",
    "Verif.Props.MlOrderExact.order_last_iff"
   ],
   "note": "False: a layer or fault block only gets the regions of the records before it, and the others are left out without a report (layer_blind; layer_emptied is a test). Proved when layers and fault blocks come after all surfaces and regions. order_iff: a file with the records of a file that loads in another order always loads, as a model that can only differ by its layers and fault blocks. order_last_iff: when those of the first file come last, the models are the same exactly when each layer and fault block of the other file has, after the records before it, the blocks it has after all records."
  },
  {
   "property": "C197",
   "status": "partial",
   "theorems": [
    "Verif.Props.MlTolerance.close_iff",
    "Verif.Props.MlTolerance.tolerant_partial",
    "Verif.Props.MlTolerance.never_far",
    "Verif.Props.MlTolerance.close_moved",
    "Verif.Props.MlTolerance.close_same",
    "Verif.Props.MlTolerance.close_symm",
    "Verif.Props.MlTolerance.close_refl",
    "Verif.Props.MlTolerance.built_moved",
    "Verif.Props.MlTolerance.flat_exact",
    "Verif.Props.MlTolerance.flat_new_line",
    "Verif.Props.MlTolerance.map_apart",
    "Verif.Props.MlTolerance.not_allTolerant",
    "Verif.Props.MlTolerance.not_transitive"
   ],
   "note": "False: the size used is the smallest side of the bounding box, so that nothing is tolerated in a model flat along an axis (flat_exact) and a border written with other roundings by its two surfaces makes two lines (flat_new_line). close_iff says which points are one in all models; the answer does not depend on the unit, the origin or the order of the points (close_moved, close_same), nor do the lines and unique vertices (built_moved). Rational numbers stand for doubles."
  },
  {
   "property": "C198",
   "status": "partial",
   "theorems": [
    "Verif.Props.GrdeclPinch.eight_iff",
    "Verif.Props.GrdeclPinch.eight_partial",
    "Verif.Props.GrdeclPinch.pinched",
    "Verif.Props.GrdeclPinch.not_allEight"
   ],
   "note": "False: a cell that is pinched on one of its pillars is loaded as a hexahedron with a vertex several times (pinched). eight_iff: exactly the cells with eight distinct corners have eight vertices; with exact arithmetic and pillars that are not horizontal and do not meet, exactly the cells with different depths at the top and at the bottom of each pillar. The merging of points is a parameter as for C152."
  },
  {
   "property": "C199",
   "status": "partial",
   "theorems": [
    "Verif.Props.GrdeclPinch.all_cells",
    "Verif.Props.GrdeclPinch.inactive_ignored",
    "Verif.Props.GrdeclPinch.active_partial",
    "Verif.Props.GrdeclPinch.not_activeOnly"
   ],
   "note": "False: the section is ignored wherever it is, and every cell of the dimensions is loaded. Exactly true when all cells are active."
  },
  {
   "property": "C20",
   "status": "partial",
   "theorems": [
    "Verif.Props.Wells.wl_loaded",
    "Verif.Props.Wells.wl_all_records_partial",
    "Verif.Props.Wells.wl_first_record_lost",
    "Verif.Props.Wells.wl_interrupted",
    "Verif.Props.ExactOrigins.wl_records_iff",
    "Verif.Props.ExactOrigins.wl_never_all"
   ],
   "note": "wl_loaded says what is loaded for every file. False in general (wl_first_record_lost): the first PATH record is skipped. wl_all_records_partial: when the first record is the well head itself, nothing is lost.  wl_records_iff: the polyline goes through all records exactly when the first one is the well head; wl_never_all: it never has the reference and then all of them."
  },
  {
   "property": "C200",
   "status": "partial",
   "theorems": [
    "Verif.Props.MlOthers.others_partial",
    "Verif.Props.MlOthers.short_line",
    "Verif.Props.MlOthers.early_end",
    "Verif.Props.MlOthers.not_ignored",
    "Verif.Props.MlOthers.begins_written"
   ],
   "note": "False: a blank line, or one of a single word, makes the loading undefined wherever it is between the records (short_line), and one that starts with the letters END ends the records (early_end is a test). Proved for lines of two words that do not start with END, such as comments and the points of the key triangles. begins_written shows that the beginnings of all saved files are among those of the theorem."
  },
  {
   "property": "C201",
   "status": "partial",
   "theorems": [
    "Verif.Props.LsoLoads.saved_loads_partial",
    "Verif.Props.LsoLoads.saved_ub_iff",
    "Verif.Props.LsoLoads.empty_refused",
    "Verif.Props.LsoLoads.no_tetra_ub",
    "Verif.Props.LsoLoads.names_back",
    "Verif.Props.LsoLoads.named_iff",
    "Verif.Props.LsoLoads.not_always_loaded"
   ],
   "note": "False: exactly the saved models with a tetrahedron in which each collection that brings a surface has a name with a word are loaded (saved_loads_partial); the others have undefined behaviour, and a model without vertices is refused (saved_ub_iff). names_back: which names come back, also for names with several blanks, quotes or no word."
  },
  {
   "property": "C202",
   "status": "partial",
   "theorems": [
    "Verif.Props.MlResaved.resaved_partial",
    "Verif.Props.MlResaved.resaved_iff",
    "Verif.Props.MlResaved.loaded_sane",
    "Verif.Props.MlResaved.resaved_fails"
   ],
   "note": "False: a file with a surface without triangles is loaded, and saving the model reads the first triangle of this surface. resaved_iff: this is the only obstacle, whatever the file: saving ends when all surfaces have triangles and is undefined otherwise; no exception is raised. loaded_sane: all numbers of a loaded model are those of something loaded. The sides of the boundary surfaces are those of determine_surface_to_regions_sides (C35, C36)."
  },
  {
   "property": "C203",
   "status": "partial",
   "theorems": [
    "Verif.Props.LsoResaved.resaved_partial",
    "Verif.Props.LsoResaved.resaved_iff",
    "Verif.Props.LsoResaved.loaded_sane",
    "Verif.Props.LsoResaved.resaved_fails"
   ],
   "note": "False: a file with a vertex that no tetrahedron of a block has is loaded, and the writer looks for the first vertex of a block at its unique vertex, which does not exist. resaved_iff: whatever the file, the model is saved exactly when each unique vertex is at a block, each surface has a triangle and each block has a boundary surface, and saving it is undefined otherwise; no exception is raised. loaded_sane: all vertices and tetrahedra of a loaded model exist. The model boundaries and the sides are given to the writer (C35, C36)."
  },
  {
   "property": "C204",
   "status": "proved",
   "theorems": [
    "Verif.Props.WellsSaved.well_saved",
    "Verif.Props.WellsSaved.curve_saved",
    "Verif.Props.WellsSaved.well_edges"
   ],
   "note": "For every loader and any attributes."
  },
  {
   "property": "C205",
   "status": "partial",
   "theorems": [
    "Verif.Props.WellsSaved.well_round_trip_partial",
    "Verif.Props.WellsSaved.well_round_trip_iff",
    "Verif.Props.WellsSaved.well_round_trip_fails",
    "Verif.Props.WellsSaved.run_round_trip"
   ],
   "note": "False: a well of one point has no edge, and the file of its curve is refused. well_round_trip_iff: the wells of less than 2^32 points that come back are exactly those of two points or more, with their points in order, rounded as they are when written. The name of the well is replaced by the one the writer gives (see C04)."
  },
  {
   "property": "C206",
   "status": "partial",
   "theorems": [
    "Verif.Props.MeshResaved.surface_back_partial",
    "Verif.Props.MeshResaved.surface_back_iff",
    "Verif.Props.MeshResaved.set_back_iff",
    "Verif.Props.MeshResaved.surface_sane",
    "Verif.Props.MeshResaved.surface_name_lost",
    "Verif.Props.MeshResaved.empty_set_lost"
   ],
   "note": "False: a quote between two blanks of a name is removed when it is read, and the two blanks left become one when the surface is saved and loaded; a file without objects is loaded as the empty point set, whose file is refused. surface_back_iff, set_back_iff: with less than 2^32 points, the surfaces that come back are exactly those whose name has its words separated by single blanks, and the point sets are exactly those that moreover have a point. surface_back_partial: in all cases the points and triangles of a surface come back."
  },
  {
   "property": "C21",
   "status": "partial",
   "theorems": [
    "Verif.Props.Voxet.cell_value_partial",
    "Verif.Props.Voxet.wrong_count",
    "Verif.Props.Voxet.cell_outside"
   ],
   "note": "Proved for every grid with fewer than 2^32 cells and every data file whose lines are about cells of the grid. A line about a cell outside of the grid violates the precondition of cell_index (cell_outside)."
  },
  {
   "property": "C22",
   "status": "partial",
   "theorems": [
    "Verif.Props.Voxet.announced_without_folder",
    "Verif.Props.Voxet.announced_with_cr",
    "Verif.Props.Voxet.announced_partial",
    "Verif.Props.ExactOrigins.announced_iff"
   ],
   "note": "False: additional_files ignores the folder of the .vo file (announced_without_folder) and keeps a final carriage return (announced_with_cr). True for a file of the current folder with one record and no carriage return (announced_partial).  announced_iff: for a file with one record that is loaded, the announced file is the one read exactly when the .vo file is in the current folder and the record does not end with a carriage return."
  },
  {
   "property": "C23",
   "status": "proved",
   "theorems": [
    "Verif.Props.GrdeclCells.depths_used_once",
    "Verif.Props.GrdeclCells.cornerIds_eq"
   ],
   "note": "All grids with 8 nx ny nz and (nx+1)(ny+1) below 2^32."
  },
  {
   "property": "C24",
   "status": "partial",
   "theorems": [
    "Verif.Props.GrdeclCells.corner_points",
    "Verif.Props.GrdeclCells.hexahedra",
    "Verif.Props.GrdeclCells.pillars_shared",
    "Verif.Props.GrdeclCells.pillars_distinct",
    "Verif.Props.GrdeclCells.interpolate_on_line_partial",
    "Verif.Props.GrdeclCells.horizontal_pillar"
   ],
   "note": "Positions, sharing and distinctness are proved for every grid. The depth of a corner is proved with exact arithmetic for pillars that are not horizontal; it fails for horizontal ones (horizontal_pillar)."
  },
  {
   "property": "C25",
   "status": "partial",
   "theorems": [
    "Verif.Props.GrdeclText.missing_dimensions",
    "Verif.Props.GrdeclText.missing_end_of_pillars",
    "Verif.Props.GrdeclText.missing_end_of_depths",
    "Verif.Props.GrdeclText.missing_section_partial",
    "Verif.Props.GrdeclRefused.grid_diverge_iff"
   ],
   "note": "False: a missing dimension line or a missing / makes the reader loop for ever, for every such file. True when a whole section is missing. grid_diverge_iff (C174) says exactly which files are read for ever."
  },
  {
   "property": "C26",
   "status": "partial",
   "theorems": [
    "Verif.Props.GrdeclText.load_parts",
    "Verif.Props.GrdeclText.exact_counts",
    "Verif.Props.GrdeclText.too_many",
    "Verif.Props.GrdeclText.too_few_pillars",
    "Verif.Props.GrdeclText.too_few_depths",
    "Verif.Props.ExactFiles.counts_iff"
   ],
   "note": "False: too many values are written out of bounds, too few depths read uninitialised memory, too few pillars are accepted. exact_counts: the announced numbers load. counts_iff: for every numbers, exactly which files load and which are undefined behaviour."
  },
  {
   "property": "C27",
   "status": "proved",
   "theorems": [
    "Verif.Props.GrdeclText.layout_irrelevant",
    "Verif.Props.GrdeclText.layout_irrelevant_included"
   ],
   "note": "For every list of pillars and every mixture of layouts and blank lines."
  },
  {
   "property": "C28",
   "status": "proved",
   "theorems": [
    "Verif.Props.Dem.dem_loaded",
    "Verif.Props.Dem.vertex_of_pixel"
   ],
   "note": "For every raster of at least one pixel and fewer than 2^32."
  },
  {
   "property": "C29",
   "status": "partial",
   "theorems": [
    "Verif.Props.Dem.never_contour",
    "Verif.Props.Dem.row_neighbours_apart",
    "Verif.Props.Dem.column_neighbours_partial"
   ],
   "note": "False: the vertices of every polygon are in the order of an hourglass (never_contour), so that neighbours of a row share no edge (row_neighbours_apart). Neighbours of a column share theirs."
  },
  {
   "property": "C30",
   "status": "proved",
   "theorems": [
    "Verif.Props.FemRanges.ranges_decoded"
   ],
   "note": "For every list of indices below 2^32-1, increasing or not, and every limit of length."
  },
  {
   "property": "C31",
   "status": "proved",
   "theorems": [
    "Verif.Props.FemRanges.lines_short",
    "Verif.Props.FemRanges.file_lines_short",
    "Verif.Props.FemRanges.lines_not_empty",
    "Verif.Props.FemRanges.ranges_decoded"
   ],
   "note": "The lines are never longer than the limit. That no range goes over two lines is part of ranges_decoded, which reads line by line."
  },
  {
   "property": "C32",
   "status": "partial",
   "theorems": [
    "Verif.Props.FemValues.last_node_missing",
    "Verif.Props.FemValues.nodes_out_of_bounds",
    "Verif.Props.FemValues.nodes_listed_partial",
    "Verif.Props.ExactMore.nodes_listed_iff"
   ],
   "note": "False: the loop goes over the polyhedra. With fewer elements than nodes the last nodes are missing, with more the attribute is read out of bounds. True exactly when the numbers are equal (nodes_listed_iff)."
  },
  {
   "property": "C33",
   "status": "proved",
   "theorems": [
    "Verif.Props.FemValues.elements_listed"
   ],
   "note": "The text of the value is that of std::to_string. Values that are not numbers are the subject of C187."
  },
  {
   "property": "C34",
   "status": "proved",
   "theorems": [
    "Verif.Props.FemFeatures.buildFeatures_ok",
    "Verif.Props.FemFeatures.features_numbered",
    "Verif.Props.FemFeatures.incidence_lines",
    "Verif.Props.FemFeatures.signature_lines",
    "Verif.Props.FemFeatures.group_ranges",
    "Verif.Props.FemFeatures.materials_ok",
    "Verif.Props.FemFeatures.no_feature_throws"
   ],
   "note": "The text of the materials is the subject of C57."
  },
  {
   "property": "C35",
   "status": "partial",
   "theorems": [
    "Verif.Props.Sides.signs_agree_partial",
    "Verif.Props.Sides.first_positive",
    "Verif.Props.Sides.signs_iff_joined",
    "Verif.Props.Sides.pinched",
    "Verif.Props.Sides.no_surface"
   ],
   "note": "Agreement is proved when the surfaces can be oriented; refuted for shells that touch along a line (pinched). First sign and connection are proved for every list."
  },
  {
   "property": "C36",
   "status": "partial",
   "theorems": [
    "Verif.Props.Sides.universe_opposite_partial",
    "Verif.Props.Sides.universe_inward",
    "Verif.Props.Sides.regions_outward",
    "Verif.Props.Sides.pinched_not_opposite",
    "Verif.Props.Sides.no_boundary",
    "Verif.Props.Sides.null_volume"
   ],
   "note": "Proved for closed orientable boundaries listed in any order; refuted for shells that touch along a line. Volumes are exact."
  },
  {
   "property": "C37",
   "status": "proved",
   "theorems": [
    "Verif.Props.MlNumbers.component_numbers",
    "Verif.Props.MlNumbers.face_numbers"
   ],
   "note": "For every model whose surfaces have distinct identifiers and whose components can be written. The universe is the first REGION record and has number 1 + S, the blocks have 2 + S and following."
  },
  {
   "property": "C38",
   "status": "partial",
   "theorems": [
    "Verif.Props.MlBlocks.surfaces_kept",
    "Verif.Props.MlBlocks.kept_iff",
    "Verif.Props.MlBlocks.blocks_back",
    "Verif.Props.MlRoundTrip.round_trip",
    "Verif.Props.MlCases.full_good",
    "Verif.Props.MlCases.short_region"
   ],
   "note": "surfaces_kept, for every saved model with sane meshes that loads (see C60): the blocks not named as the universe come back with their boundary and internal surfaces, up to order, when these differ; kept_iff says exactly when they do. Blocks with one boundary surface only are undefined behaviour (C42)."
  },
  {
   "property": "C39",
   "status": "proved",
   "theorems": [
    "Verif.Props.MlRoundTrip.round_trip",
    "Verif.Props.MlCases.layer_numbers",
    "Verif.Props.MlCases.fault_block_numbers"
   ],
   "note": "round_trip for saved models (fields units, faultBlocks); layer_numbers and fault_block_numbers for records with any numbers."
  },
  {
   "property": "C40",
   "status": "proved",
   "theorems": [
    "Verif.Props.MlRoundTrip.face_text",
    "Verif.Props.MlRoundTrip.faces_kept"
   ],
   "note": "For every list of surfaces with at least one triangle each."
  },
  {
   "property": "C41",
   "status": "partial",
   "theorems": [
    "Verif.Props.MlCases.unclosed_not_reported",
    "Verif.Props.MlCases.unclosed_load_diverges",
    "Verif.Props.MlCases.end_of_file",
    "Verif.Props.MlCases.cut_reported_partial",
    "Verif.Props.MlCases.list_meets_end",
    "Verif.Props.MlRefused.ml_diverge_iff"
   ],
   "note": "False: every file cut inside a list makes the loader run for ever. Files cut between lists, and lists that meet END, end with an exception. ml_diverge_iff (C168): exactly the files that end inside a list are read for ever."
  },
  {
   "property": "C42",
   "status": "partial",
   "theorems": [
    "Verif.Props.MlLoads.one_surface_refused",
    "Verif.Props.MlCases.single_surface_block",
    "Verif.Props.MlCases.short_region",
    "Verif.Props.MlRoundTrip.round_trip"
   ],
   "note": "False, and for every model with sane meshes and such a block not named as the universe (one_surface_refused): loading is undefined behaviour (short_region). round_trip covers blocks with at least two numbers."
  },
  {
   "property": "C43",
   "status": "proved",
   "theorems": [
    "Verif.Props.LsoNumbers.numbers",
    "Verif.Props.LsoNumbers.tetra_lines"
   ],
   "note": "For every model in which each vertex of a component mesh is at one unique vertex."
  },
  {
   "property": "C44",
   "status": "proved",
   "theorems": [
    "Verif.Props.LsoRoundTrip.blocks_by_word",
    "Verif.Props.LsoRoundTrip.tetrahedra_kept"
   ],
   "note": "Points are equal up to the rounding of number formatting. blocks_by_word covers names of any number of words."
  },
  {
   "property": "C45",
   "status": "partial",
   "theorems": [
    "Verif.Props.LsoCases.same_word_mixes",
    "Verif.Props.LsoCases.names_mixed",
    "Verif.Props.LsoCases.own_word_partial",
    "Verif.Props.LsoWords.kept_iff",
    "Verif.Props.LsoWords.all_kept_iff"
   ],
   "note": "False: blocks whose names begin with the same word get the tetrahedra of each other, for every saved model. kept_iff: exactly the blocks whose first word no other block with tetrahedra has keep their own meshes, and exactly those named by one word keep their names."
  },
  {
   "property": "C46",
   "status": "partial",
   "theorems": [
    "Verif.Props.LsoCases.tetra_property_fails",
    "Verif.Props.LsoCases.tetra_property_ub",
    "Verif.Props.LsoCases.tetra_values_partial",
    "Verif.Props.ExactLast.tetra_values_iff"
   ],
   "note": "False: the values are copied through the vertices of the block. Blocks with more vertices than tetrahedra cannot be loaded; tetra_values_partial says what the other ones get. tetra_values_iff: for one property of one value, exactly when the values of the lines numbered as the vertices of the block are those of its tetrahedra."
  },
  {
   "property": "C47",
   "status": "partial",
   "theorems": [
    "Verif.Props.Geos.brep_regions",
    "Verif.Props.Geos.unit_regions_partial",
    "Verif.Props.Geos.outside_units_ub",
    "Verif.Props.ExactMore.unit_regions_iff"
   ],
   "note": "Proved for BReps, and for structural models whose blocks are all in a unit (first unit when several). False otherwise: a block outside all units is undefined behaviour (unit_regions_iff). The conversion into a solid is a parameter."
  },
  {
   "property": "C48",
   "status": "partial",
   "theorems": [
    "Verif.Props.Shp.open_part",
    "Verif.Props.Shp.closed_part",
    "Verif.Props.Shp.part_segments",
    "Verif.Props.Shp.line_layer",
    "Verif.Props.Shp.single_point_ub",
    "Verif.Props.ExactSmall.part_iff"
   ],
   "note": "Proved for parts of at least two points. False for parts of one point, which are undefined behaviour. part_iff: a part is read exactly when it has two points."
  },
  {
   "property": "C49",
   "status": "partial",
   "theorems": [
    "Verif.Props.Shp.corner_points",
    "Verif.Props.Shp.other_points_loose",
    "Verif.Props.Shp.single_points_partial",
    "Verif.Props.Shp.unique_vertices",
    "Verif.Props.ExactMore.all_unique_iff"
   ],
   "note": "The points are proved. False for the unique vertices: only the first vertex of each corner mesh is associated with a unique vertex. True for layers of one point, and only for them (all_unique_iff)."
  },
  {
   "property": "C50",
   "status": "partial",
   "theorems": [
    "Verif.Props.Skua.stack_says",
    "Verif.Props.SkuaColumns.column_loads",
    "Verif.Props.Skua.text_ignored",
    "Verif.Props.Skua.strip_blanks",
    "Verif.Props.Skua.contacts_partial",
    "Verif.Props.Skua.two_tops_discontinuity",
    "Verif.Props.Skua.eroded_twice"
   ],
   "note": "stack_says gives units, names and relations for every column that loads; column_loads says it from the column as it is written, with its parts in any order and anything else between them. False for some combinations of contacts (eroded_twice); contacts_partial covers the others. The repair of the stack by the other library is left out."
  },
  {
   "property": "C51",
   "status": "partial",
   "theorems": [
    "Verif.Props.BrepFem.own_painted_partial",
    "Verif.Props.BrepFem.own_not_painted",
    "Verif.Props.BrepFem.second_not_painted",
    "Verif.Props.ExactExports.own_exported_iff"
   ],
   "note": "False: when the first surface (or line) has no aperture (or conduit area), none is exported. Proved when the first one has it, which is exactly when it is exported (own_exported_iff). The conversion into a solid is a parameter."
  },
  {
   "property": "C52",
   "status": "proved",
   "theorems": [
    "Verif.Props.VSet.union_of_objects"
   ],
   "note": ""
  },
  {
   "property": "C53",
   "status": "partial",
   "theorems": [
    "Verif.Props.Dem.poly_uninitialised"
   ],
   "note": "False for every image: the array has one value per vertex of a grid with one cell per pixel, and only one per pixel is read from the file; the other ones are used uninitialised. The elevations present in the file are all that a partial theorem could speak of, no run is free of the undefined behaviour."
  },
  {
   "property": "C54",
   "status": "partial",
   "theorems": [
    "Verif.Props.FemValues.nodal_count",
    "Verif.Props.FemValues.element_blocks",
    "Verif.Props.FemValues.element_count_wrong",
    "Verif.Props.FemValues.element_count_partial"
   ],
   "note": "Proved for nodes. False for elements when an attribute that is not scalar exists (element_count_wrong); element_count_partial says exactly when it is right."
  },
  {
   "property": "C55",
   "status": "partial",
   "theorems": [
    "Verif.Props.FemValues.nodal_sets",
    "Verif.Props.FemValues.element_sets_ub",
    "Verif.Props.ExactSmall.element_sets_iff"
   ],
   "note": "Proved for nodes. False for elements: the keys of the map are views of destroyed strings, undefined behaviour for every mesh with at least one tetrahedron. element_sets_iff says exactly when it is undefined."
  },
  {
   "property": "C56",
   "status": "proved",
   "theorems": [
    "Verif.Props.FemFeatures.elements_written",
    "Verif.Props.FemFeatures.nodes_written"
   ],
   "note": "Coordinates up to the rounding of number formatting."
  },
  {
   "property": "C57",
   "status": "partial",
   "theorems": [
    "Verif.Props.FemFeatures.material_lines_partial",
    "Verif.Props.FemFeatures.material_glued",
    "Verif.Props.FemFeatures.material_lines_glued",
    "Verif.Props.FemMaterial.material_words",
    "Verif.Props.FemMaterial.material_read_iff"
   ],
   "note": "False when the features of a value need two lines of 1500 characters: the lines are glued and the repeated value reads as a feature. Proved when each value needs one line, and only then: the words of every line of every material are given exactly (also for a value that is not the last of its map, whose last line is glued to the first one of the next value), and the content of the map comes back exactly when the features of every value fit in one line."
  },
  {
   "property": "C58",
   "status": "partial",
   "theorems": [
    "Verif.Props.MlMeshes.meshes_kept_iff",
    "Verif.Props.MlMeshes.meshes_kept",
    "Verif.Props.MlMeshes.meshes_back",
    "Verif.Props.MlCollections.sizes_kept_iff",
    "Verif.Props.MlCollections.collections_back",
    "Verif.Props.MlRoundTrip.round_trip",
    "Verif.Props.MlCases.shared_surface",
    "Verif.Props.MlCases.collections_not_kept"
   ],
   "note": "Proved when every surface is in one collection. False for a surface in two collections: the second loses it and its next surface gets its triangles. sizes_kept_iff, for every model whose file loads: the collections keep as many surfaces as they had exactly when no surface is twice in them. collections_back gives the numbers of their surfaces. meshes_kept_iff and meshes_kept, for those with sane meshes: every surface keeps its mesh exactly when the first surfaces of each collection have the meshes of those that no collection before it has, hence when these come first; meshes_back says which mesh each surface gets."
  },
  {
   "property": "C59",
   "status": "partial",
   "theorems": [
    "Verif.Props.MlCollections.types_kept_iff",
    "Verif.Props.MlCollections.faults_back",
    "Verif.Props.MlCollections.horizons_back",
    "Verif.Props.MlRoundTrip.round_trip",
    "Verif.Props.MlCases.fault_types_not_kept",
    "Verif.Props.MlCases.erosion_unsaveable"
   ],
   "note": "False: only normal and reverse faults keep their type; models with erosion or baselap horizons cannot be saved. types_kept_iff, for every model whose file loads: contacts are kept, and types exactly when no fault has a type other than normal and reverse."
  },
  {
   "property": "C60",
   "status": "partial",
   "theorems": [
    "Verif.Props.MlLoads.saved_loads_iff",
    "Verif.Props.MlRoundTrip.round_trip",
    "Verif.Props.MlGroups.own_surface",
    "Verif.Props.MlCases.single_surface_block",
    "Verif.Props.MlCases.empty_boundary_throws",
    "Verif.Props.MlCases.merged_names_throw"
   ],
   "note": "False: a collection without surfaces, two names that differ by a blank, or a block bounded by one surface. saved_loads_iff, for every saved model with sane meshes: the file loads exactly when every written name has a word, the names of the collections and of the surfaces in none differ as they are read, every collection has a surface that no collection before it has, and every block not named as the universe lists two numbers. round_trip says in addition what is kept, for the models of GoodModel."
  },
  {
   "property": "C61",
   "status": "partial",
   "theorems": [
    "Verif.Props.MlNames.names_back",
    "Verif.Props.MlNames.blocks_kept_iff",
    "Verif.Props.MlNames.universe_lost",
    "Verif.Props.MlRoundTrip.round_trip",
    "Verif.Props.MlCases.universe_block_lost"
   ],
   "note": "False exactly for models with a block named \"Universe\", up to blanks and quotes (blocks_kept_iff, for every model whose file loads). names_back says which names of blocks, units and fault blocks come back. That the file loads is proved for the models of GoodModel (round_trip)."
  },
  {
   "property": "C62",
   "status": "partial",
   "theorems": [
    "Verif.Props.MlCollections.boundaries_added",
    "Verif.Props.MlCollections.boundaries_back",
    "Verif.Props.MlRoundTrip.round_trip",
    "Verif.Props.MlCases.loose_surfaces_collected"
   ],
   "note": "False: each surface without collection comes back in a model boundary of its own, and all of them in another one. boundaries_added, for every model whose file loads: as many model boundaries as before, one for each surface in no collection, and perhaps another one. True, by round_trip, when every surface is in a collection."
  },
  {
   "property": "C63",
   "status": "proved",
   "theorems": [
    "Verif.Props.LsoRoundTrip.surfaces_kept",
    "Verif.Props.LsoRoundTrip.kept_surfaces",
    "Verif.Props.LsoRoundTrip.groups_disjoint"
   ],
   "note": "For the models of Loadable and Coherent. A surface of two collections belongs to the first one."
  },
  {
   "property": "C64",
   "status": "partial",
   "theorems": [
    "Verif.Props.LsoRoundTrip.collections_become_horizons",
    "Verif.Props.LsoCases.fault_becomes_horizon",
    "Verif.Props.ExactExports.horizons_kept_iff"
   ],
   "note": "False: every collection comes back as a horizon. Names and surfaces are kept. horizons_kept_iff: the horizons are those of the model exactly when it has no fault and no model boundary."
  },
  {
   "property": "C65",
   "status": "proved",
   "theorems": [
    "Verif.Props.LsoRelations.relations"
   ],
   "note": "For the models of Loadable."
  },
  {
   "property": "C66",
   "status": "partial",
   "theorems": [
    "Verif.Props.LsoNumbers.saved_vertices",
    "Verif.Props.LsoNumbers.loose_surface_ub",
    "Verif.Props.LsoCases.saved_boundaries",
    "Verif.Props.LsoCases.no_boundary_ub",
    "Verif.Props.LsoCases.uncollected_throws",
    "Verif.Props.LsoSaving.outcomes"
   ],
   "note": "False: a vertex outside all blocks or a block without boundary surface is undefined behaviour. saved_vertices and saved_boundaries say what every saved model has. outcomes says exactly when saving is undefined and when it throws."
  },
  {
   "property": "C67",
   "status": "partial",
   "theorems": [
    "Verif.Props.LsoCases.shared_number_ub",
    "Verif.Props.LsoCases.no_tetra_ub",
    "Verif.Lso.load_save",
    "Verif.Props.LsoRefused.lso_ub_iff"
   ],
   "note": "False for triangles that use the number of a shared vertex and for solids without tetrahedra. load_save: saved models of Loadable are loaded. lso_ub_iff (C169) says exactly which files have undefined behaviour."
  },
  {
   "property": "C68",
   "status": "partial",
   "theorems": [
    "Verif.Props.Shp.closed_ring",
    "Verif.Props.Shp.large_ring",
    "Verif.Props.Shp.rings_are_polygons",
    "Verif.Props.Shp.open_ring_loses",
    "Verif.Props.Shp.hole_filled",
    "Verif.Props.ExactFiles.ring_iff"
   ],
   "note": "Closed exterior rings are proved. False for interior rings, which become polygons, and for unclosed rings, which lose a point. ring_iff: rings of at most 255 points become a polygon through their points exactly when closed."
  },
  {
   "property": "C69",
   "status": "partial",
   "theorems": [
    "Verif.Props.Shp.components",
    "Verif.Props.Shp.unknown_layer_skipped",
    "Verif.Props.Shp.missing_geometry_throws",
    "Verif.Props.ExactRest.layers_kept_iff"
   ],
   "note": "False: layers of other kinds are skipped. components says what each known layer gives. layers_kept_iff: every layer gives a component exactly when none is of another kind."
  },
  {
   "property": "C70",
   "status": "proved",
   "theorems": [
    "Verif.Props.Shp.unique_vertices"
   ],
   "note": "For every shapefile that loads."
  },
  {
   "property": "C71",
   "status": "partial",
   "theorems": [
    "Verif.Props.Skua.recognised",
    "Verif.Props.Skua.not_recognised",
    "Verif.Props.ExactExports.recognised_iff"
   ],
   "note": "False: recognition depends on the position of the text in the lines of the file. recognised_iff says exactly which files are recognised."
  },
  {
   "property": "C72",
   "status": "proved",
   "theorems": [
    "Verif.Props.Skua.read_words",
    "Verif.Props.Skua.loads_iff",
    "Verif.Props.Skua.refused",
    "Verif.Props.Skua.no_column_throws"
   ],
   "note": "For every tree given by the XML parser."
  },
  {
   "property": "C73",
   "status": "partial",
   "theorems": [
    "Verif.Props.Geos.properties_transferred",
    "Verif.Props.Geos.requested",
    "Verif.Props.Geos.export_ok",
    "Verif.Props.Geos.wrong_dimension_ub",
    "Verif.Props.Geos.region_name_throws",
    "Verif.Props.GeosExact.transfer_iff"
   ],
   "note": "Values and selection are proved for every export that succeeds, and exports succeed for properties of the right type. False for a property with another number of components (undefined behaviour). transfer_iff says for each property exactly whether it is exported, refused or undefined."
  },
  {
   "property": "C74",
   "status": "partial",
   "theorems": [
    "Verif.Props.Geos.fields_text",
    "Verif.Props.Geos.fields_decoded",
    "Verif.Props.Geos.comma_splits",
    "Verif.Props.ExactExports.fields_decoded_iff"
   ],
   "note": "Proved for names without comma. False for names with one (fields_decoded_iff): the text does not tell them apart."
  },
  {
   "property": "C75",
   "status": "partial",
   "theorems": [
    "Verif.Props.Geos.perforations_in_box_partial",
    "Verif.Props.Geos.nearest_selected",
    "Verif.Props.Geos.outside_well_empty",
    "Verif.Props.ExactSmall.box_iff"
   ],
   "note": "Proved for perforations in the bounding box of a cell. Perforations outside all cells are ignored, and a well of such perforations gets an inverted box. box_iff: a box has bounds exactly when a perforation is in the bounding box of a cell."
  },
  {
   "property": "C76",
   "status": "proved",
   "theorems": [
    "Verif.Props.BrepFem.conductivity_painted"
   ],
   "note": "For every model whose mappings stay in the solid."
  },
  {
   "property": "C77",
   "status": "partial",
   "theorems": [
    "Verif.Props.BrepFem.names_painted_partial",
    "Verif.Props.BrepFem.name_lost",
    "Verif.Props.ExactExports.name_carried_iff"
   ],
   "note": "False: names are painted with the attributes, so a named surface or line without painted attribute is No_name. name_carried_iff: an element of a single component has its name exactly when a painted attribute is there."
  },
  {
   "property": "C78",
   "status": "proved",
   "theorems": [
    "Verif.Props.BrepFem.cells_named"
   ],
   "note": "For every model whose mappings stay in the solid."
  },
  {
   "property": "C79",
   "status": "partial",
   "theorems": [
    "Verif.Props.BrepFem.vertices_labelled",
    "Verif.Props.BrepFem.block_listed_twice",
    "Verif.Props.BrepFem.block_listed_once_partial",
    "Verif.Props.ExactExports.listed_once_iff"
   ],
   "note": "False for every block with two vertices at one vertex of the solid. Proved for the other ones (listed_once_iff)."
  },
  {
   "property": "C80",
   "status": "partial",
   "theorems": [
    "Verif.Props.BrepFem.attributes_copied",
    "Verif.Props.BrepFem.value_copied",
    "Verif.Props.BrepFem.foreign_value",
    "Verif.Props.BrepFem.foreign_witness",
    "Verif.Props.BrepFem.empty_block_ub"
   ],
   "note": "Own values are proved. False for blocks without the attribute, which get the first value of another block, and for blocks without tetrahedra, which are undefined behaviour."
  },
  {
   "property": "C81",
   "status": "proved",
   "theorems": [
    "Verif.Props.Recognise.saved_ts_recognised",
    "Verif.Props.Recognise.saved_vs_recognised",
    "Verif.Props.Recognise.saved_pl_recognised",
    "Verif.Props.Recognise.saved_ml_recognised",
    "Verif.Props.Recognise.saved_lso_recognised",
    "Verif.Props.Recognise.hasKeyword_iff"
   ],
   "note": "For every mesh and model; .pl, .ml and .lso when saving ends without error."
  },
  {
   "property": "C82",
   "status": "partial",
   "theorems": [
    "Verif.Props.Recognise.wl_refused",
    "Verif.Props.Recognise.dev_refused",
    "Verif.Props.Recognise.voxet_refused",
    "Verif.Props.Recognise.grdecl_refused",
    "Verif.Props.Recognise.ml_refused",
    "Verif.Props.Recognise.lso_refused",
    "Verif.Props.Recognise.ts_empty",
    "Verif.Props.Recognise.vs_empty",
    "Verif.Props.Recognise.pl_empty",
    "Verif.Props.Recognise.meshes_not_refused",
    "Verif.Props.Recognise.points_recognised"
   ],
   "note": "Proved for .wl, .dev, .vo, .grdecl, .ml and .lso; every .txt and .dat file is recognised (points_recognised). False for .ts, .vs and .pl: every such file is loaded as an empty mesh."
  },
  {
   "property": "C83",
   "status": "partial",
   "theorems": [
    "Verif.Props.Recognise.dev_title_first",
    "Verif.Props.Recognise.dev_recognised_refused",
    "Verif.Props.DevTitle.refused_for_place_iff",
    "Verif.Props.DevTitle.place_partial",
    "Verif.Props.DevTitle.not_place_free",
    "Verif.Props.DevTitle.titled",
    "Verif.Props.DevTitle.untitled",
    "Verif.Props.DevTitle.short_title"
   ],
   "note": "False: the title is looked for in the whole file, but read on the first line only. refused_for_place_iff: the surveys that are refused because of the place of their title are exactly those with a line before it that are not refused when it is moved to the first line. Files with only the first words of the title, by which surveys are recognised, are refused wherever it is."
  },
  {
   "property": "C84",
   "status": "proved",
   "theorems": [
    "Verif.Props.StratiLso.vertex_properties"
   ],
   "note": "For every file that loads. Sizes equal to zero are left out."
  },
  {
   "property": "C85",
   "status": "proved",
   "theorems": [
    "Verif.Props.StratiLso.stratigraphic_coordinates"
   ],
   "note": "For every file that loads."
  },
  {
   "property": "C86",
   "status": "partial",
   "theorems": [
    "Verif.Props.StratiLso.missing_property_throws",
    "Verif.Props.StratiLso.other_size_ub",
    "Verif.Props.StratiExact.refused_iff",
    "Verif.Props.StratiExact.loaded_iff"
   ],
   "note": "Missing properties are proved to throw. False for other sizes: undefined behaviour. For files with different names of properties, refused_iff says exactly when there is an exception and loaded_iff when the behaviour is undefined."
  },
  {
   "property": "C87",
   "status": "partial",
   "theorems": [
    "Verif.Props.StratiLso.recognised_mentions",
    "Verif.Props.StratiLso.recognised_refused",
    "Verif.Props.StratiExact.loaded_iff"
   ],
   "note": "False: names that only contain the expected names are recognised. recognised_mentions says what every recognised file has, and loaded_iff which files with the two properties are loaded."
  },
  {
   "property": "C88",
   "status": "proved",
   "theorems": [
    "Verif.Props.LsoLines.lines_end",
    "Verif.Props.LsoLines.line_endless_iff"
   ],
   "note": "Under the contract of the mesh library that the next border edge is a one-to-one map (NextOk); line_endless_iff says when a line does not end without it."
  },
  {
   "property": "C89",
   "status": "proved",
   "theorems": [
    "Verif.Props.LsoLines.lines_corner_to_corner"
   ],
   "note": "For every set of surfaces."
  },
  {
   "property": "C90",
   "status": "partial",
   "theorems": [
    "Verif.Props.LsoLines.corner_edges_covered",
    "Verif.Props.LsoLines.borders_covered_partial",
    "Verif.Props.LsoLines.loop_without_corner",
    "Verif.Props.LsoLines.alone_not_covered",
    "Verif.Props.LsoCovered.covered_iff",
    "Verif.Props.LsoCovered.all_covered_iff"
   ],
   "note": "Proved for loops with a corner, when borders through a vertex that is not a corner follow the same edges. False for loops without corner: they get no line. covered_iff: under that condition an edge is on a line exactly when its loop has a corner."
  },
  {
   "property": "C91",
   "status": "partial",
   "theorems": [
    "Verif.Props.LsoLines.lines_disjoint_partial",
    "Verif.Props.LsoLines.shared_edge",
    "Verif.Props.LsoLines.lines_not_disjoint"
   ],
   "note": "Proved when borders through a vertex that is not a corner follow the same edges. False in general."
  },
  {
   "property": "C92",
   "status": "proved",
   "theorems": [
    "Verif.Props.LsoLines.line_relations"
   ],
   "note": "For every set of surfaces."
  },
  {
   "property": "C93",
   "status": "partial",
   "theorems": [
    "Verif.Props.LsoLines.two_sides_internal_partial",
    "Verif.Props.LsoLines.slit_end",
    "Verif.Props.LsoLines.two_sides_not_internal"
   ],
   "note": "Proved for lines that do not come back along their first edge. False at the end of a slit."
  },
  {
   "property": "C94",
   "status": "partial",
   "theorems": [
    "Verif.Props.LsoLines.corners_where_surfaces_change_partial",
    "Verif.Props.LsoLines.corners_one_sided"
   ],
   "note": "Proved when no surface has two vertices at the same place. False otherwise: the comparison is one-sided."
  },
  {
   "property": "C95",
   "status": "proved",
   "theorems": [
    "Verif.Props.LsoLines.corner_reason",
    "Verif.Props.LsoLines.corners_nodup",
    "Verif.Props.LsoLines.buildCorners_mem"
   ],
   "note": "For every set of surfaces."
  },
  {
   "property": "C96",
   "status": "proved",
   "theorems": [
    "Verif.Props.LsoLines.lines_on_surface_related",
    "Verif.Props.LsoLines.split_adds_only"
   ],
   "note": "The splitting of the meshes, made by another library, is not modelled."
  },
  {
   "property": "C97",
   "status": "partial",
   "theorems": [
    "Verif.Props.MlLines.starts_first_loop",
    "Verif.Props.MlLines.starts_complete_partial",
    "Verif.Props.MlLines.hole_corner_lost",
    "Verif.Props.MlLines.starts_diverge_iff"
   ],
   "note": "starts_first_loop says what is written for every surface. starts_diverge_iff: for borders that are not sound, writing goes on for ever exactly when the first edge is never reached again. Complete for borders of one loop; the corners of the other loops are not written."
  },
  {
   "property": "C98",
   "status": "proved",
   "theorems": [
    "Verif.Props.MlLines.compute_line",
    "Verif.Props.MlLines.compute_line_ub"
   ],
   "note": "Under the contract of the mesh library that next and previous border edges are one-to-one maps (NextOk)."
  },
  {
   "property": "C99",
   "status": "proved",
   "theorems": [
    "Verif.Props.MlLines.border_round_trip"
   ],
   "note": "For surfaces with one border loop, as the property says."
  }
 ]
}