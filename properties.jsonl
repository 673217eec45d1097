{"id": "C01", "title": "Baseline codes round-trip", "statement": "Encoding an antenna pair with ij2bl and decoding with bl2ij returns the same two antennas in ascending order, for every pair of antenna numbers from 0 to 2046, whichever order they are given in; in particular ij2bl is symmetric in its arguments.", "quantifier": "all pairs (i,j) of antenna numbers 0..2046, in both orders", "why_tests_cant": "4.2 million pairs with a change of radix at antenna 255; tests sample a handful.", "anchors": ["aipy/miriad.py:ij2bl", "aipy/miriad.py:bl2ij"]}
{"id": "C02", "title": "Baseline codes never collide", "statement": "Two different unordered antenna pairs (antennas 0..2046) never get the same baseline number, so data keyed by baseline number are never merged across baselines; the documented limit is sharp (antenna 2047 breaks it).", "quantifier": "all pairs of unordered antenna pairs", "why_tests_cant": "A collision is a relation between two inputs out of ~2e12 combinations.", "anchors": ["aipy/miriad.py:ij2bl", "aipy/phs.py:AntennaArray.bl_indices"]}
{"id": "C03", "title": "File-layer baseline coding agrees with the Python coding and survives single precision", "statement": "The antenna pair passed in the preamble to UV.write is the pair handed back by UV.read: the C coding MKBL followed by storage as a 32-bit float and decoding with GETI/GETJ returns (i,j) unchanged for all antennas 0..2046 (either order), and for i<=j the stored number equals ij2bl(i,j).", "quantifier": "all ordered antenna pairs 0..2046", "why_tests_cant": "Needs exactness of float32 for every code value and agreement of two independently written codecs on every input.", "anchors": ["aipy/_miriad/miriad_wrap.h:MKBL", "aipy/_miriad/miriad_wrap.h:GETI", "aipy/_miriad/miriad_wrap.h:GETJ", "aipy/_miriad/miriad_wrap.cpp:UVObject_write", "aipy/miriad.py:ij2bl"]}
{"id": "C04", "title": "Polarisation names and baseline/polarisation indices decode uniquely", "statement": "pol2str and str2pol are mutually inverse on their tables, and packing antennas and polarisation with ijp2blp then unpacking with blp2ijp returns the (ordered) antenna pair and the polarisation for every antenna pair 0..2046 and every polarisation code from -9 to 6.", "quantifier": "all polarisation codes in the table; all (i,j,pol) triples", "why_tests_cant": "Tens of millions of triples; the property is about the whole index space.", "anchors": ["aipy/miriad.py:str2pol", "aipy/miriad.py:pol2str", "aipy/pol.py:ijp2blp", "aipy/pol.py:blp2ijp"]}
{"id": "C05", "title": "Channel lists mean what they say", "statement": "parse_chans of a comma separated list returns, in order, the concatenation of the singletons n, the inclusive ranges a_b and the inclusive strided ranges a_b_s; 'all' gives every channel below nchan exactly once; an item with more than three fields is rejected rather than ignored.", "quantifier": "all channel strings built from any number of items with arbitrary integers", "why_tests_cant": "The input is an unbounded list of items with unbounded integers.", "anchors": ["aipy/scripting.py:parse_chans"]}
{"id": "C06", "title": "Antenna expressions denote exactly the documented baselines", "statement": "parse_ants of an include-only expression (single antennas, pairs, parenthesised groups) yields exactly the baselines with one end in each named group, each marked include; an excluded element yields the same baselines marked exclude; 'all' discards everything before it; anything unparsable raises ValueError.", "quantifier": "all expressions of the antenna grammar and all array sizes", "why_tests_cant": "The grammar is unbounded and the expected set is a cartesian product.", "anchors": ["aipy/scripting.py:parse_ants"]}
{"id": "C07", "title": "Selection applied to a UV file returns exactly the requested baselines", "statement": "After uv_selector(uv, ants), UV.read/UV.all returns a record if and only if its antenna pair is selected by the expression: the left-to-right combination of the clauses, 'or' before an included item and 'and not' before an excluded one, independent of the order of the two antennas in the record.", "quantifier": "all selection lists and all records", "why_tests_cant": "A stateful filter built by a sequence of select() calls, evaluated on every record.", "anchors": ["aipy/scripting.py:uv_selector", "aipy/miriad.py:UV.select", "aipy/_miriad/mir/uvio.c:uvselect_c", "aipy/_miriad/mir/uvio.c:uvread_select"]}
{"id": "C08", "title": "Parameter strings broadcast values over objects and parameters", "statement": "parse_prms assigns to every (object, parameter) pair of an item the right value and error: a single value is broadcast to all pairs, one value per object or per parameter is assigned in order, mismatched counts are rejected, and when two items name the same pair the later one wins and all other pairs are unaffected.", "quantifier": "all parameter strings (any number of items, objects and parameters)", "why_tests_cant": "Unbounded nesting of lists; the last-writer-wins part is about histories.", "anchors": ["aipy/scripting.py:parse_prms"]}
{"id": "C09", "title": "Flattening fit parameters loses nothing", "statement": "reconstruct_prms(*flatten_prms(p)) == p for every parameter dictionary whose values are numbers or lists of numbers, so an optimiser may work on the flat vector and the structured values come back unchanged.", "quantifier": "all parameter dictionaries", "why_tests_cant": "Any number of objects, names and lengths; failures hide at lengths 0 and 1.", "anchors": ["aipy/fit.py:flatten_prms", "aipy/fit.py:reconstruct_prms"]}
{"id": "C10", "title": "Changing one fit value changes only that parameter", "statement": "With the key list produced by flatten_prms, altering one element of the flat vector alters exactly one parameter element of the reconstructed dictionary, and distinct parameters occupy disjoint slices that together cover the whole vector.", "quantifier": "all parameter dictionaries and all positions in the vector", "why_tests_cant": "A non-interference property over all positions and all dictionaries.", "anchors": ["aipy/fit.py:flatten_prms", "aipy/fit.py:reconstruct_prms"]}
{"id": "C11", "title": "set_params(get_params('*')) changes nothing", "statement": "For antennas, sources and beams, reading all fit parameters and writing them back leaves the object in the same state, and get_params after set_params returns the values that were set.", "quantifier": "all antenna, source and beam states", "why_tests_cant": "A law over all object states, where each class has its own key table.", "anchors": ["aipy/fit.py:Antenna", "aipy/fit.py:RadioFixedBody", "aipy/fit.py:BeamAlm", "aipy/fit.py:Beam2DGaussian", "aipy/pol.py:Antenna.set_params"]}
{"id": "C12", "title": "Setting a parameter of one antenna leaves the others alone", "statement": "set_params on an AntennaArray with a dictionary keyed by antenna changes only the antennas named in the dictionary; all other antennas keep all their parameters.", "quantifier": "all arrays, all parameter dictionaries", "why_tests_cant": "Aliasing between objects is a property of every pair of objects over any history of calls.", "anchors": ["aipy/fit.py:AntennaArray.set_params", "aipy/fit.py:Antenna.set_params", "aipy/phs.py:Antenna.__init__"]}
{"id": "C13", "title": "bl_indices enumerates every baseline once", "statement": "AntennaArray.bl_indices returns each unordered antenna pair exactly once with i<=j: n(n+1)/2 numbers with auto=True and cross=True, n(n-1)/2 for cross only, n for autos only.", "quantifier": "all array sizes (up to the 2047 antenna coding limit) and both switches", "why_tests_cant": "Unbounded array size, no duplicates and no omissions.", "anchors": ["aipy/phs.py:AntennaArray.bl_indices"]}
{"id": "C14", "title": "Baselines are antisymmetric and close around loops", "statement": "get_baseline(i,j) = -get_baseline(j,i), get_baseline(i,i)=0 and get_baseline(i,j)+get_baseline(j,k)=get_baseline(i,k) in the raw, equatorial and zenith frames for any antenna positions, and lengths are the same in every frame.", "quantifier": "all antenna positions, all triples, all hour angles and latitudes", "why_tests_cant": "Continuum of inputs, algebraic identity.", "anchors": ["aipy/phs.py:AntennaArray.get_baseline", "aipy/coord.py:eq2top_m", "aipy/coord.py:rot_m"]}
{"id": "C15", "title": "Phasing to a source and unphasing are inverse", "statement": "unphs2src(phs2src(data)) == data and the phase applied has unit modulus, for every baseline, frequency, source direction and instrumental delay/offset; and the phase for (j,i) is the complex conjugate of the phase for (i,j).", "quantifier": "all data, baselines, source directions, delays and offsets (exact arithmetic)", "why_tests_cant": "Identity over a continuum of complex inputs.", "anchors": ["aipy/phs.py:AntennaArray.gen_phs", "aipy/phs.py:AntennaArray.phs2src", "aipy/phs.py:AntennaArray.unphs2src", "aipy/phs.py:AntennaArray.get_phs_offset"]}
{"id": "C16", "title": "Phase closure", "statement": "For a point source the product of the model phases around any antenna triangle is 1: antenna based delays and offsets cancel in closure phases.", "quantifier": "all antenna triples, positions, delays, offsets, frequencies and directions", "why_tests_cant": "Continuum of inputs.", "anchors": ["aipy/phs.py:AntennaArray.gen_phs", "aipy/phs.py:AntennaArray.gen_uvw"]}
{"id": "C17", "title": "Simulated visibilities are Hermitian and linear in flux", "statement": "AntennaArray.sim(j,i) with the feeds of the polarisation exchanged is the complex conjugate of sim(i,j) (for xx and yy simply sim(j,i)); the visibility of a list of sources is the sum of the visibilities of the individual sources whatever their order, sources below the horizon contribute nothing, multiplying all fluxes multiplies the visibility, and a same-feed auto-correlation is the real sum of |gain|^2 |beam|^2 flux, non-negative for non-negative fluxes.", "quantifier": "all gains, beams, fluxes, source lists", "why_tests_cant": "Continuum of inputs and unbounded source lists.", "anchors": ["aipy/amp.py:AntennaArray.sim", "aipy/amp.py:AntennaArray.passband", "aipy/amp.py:AntennaArray.bm_response"]}
{"id": "C18", "title": "sim never answers from stale source or time state", "statement": "Over any sequence of set_jultime, sim_cache and sim calls, sim either raises or returns the visibility computed for the sources given to the most recent sim_cache issued after the most recent set_jultime; repeated sims in any order of baselines give identical answers although beam responses are cached between them.", "quantifier": "all call histories", "why_tests_cant": "Protocol property over all call sequences.", "anchors": ["aipy/amp.py:AntennaArray.set_jultime", "aipy/amp.py:AntennaArray.sim_cache", "aipy/amp.py:AntennaArray.sim", "aipy/amp.py:AntennaArray.bm_response"]}
{"id": "C19", "title": "Rotation matrices are rotations", "statement": "rot_m(angle, unit vector) is orthogonal with determinant 1, fixes its axis, and composes additively in the angle (so rot_m(-a) is its inverse); a vector that is not of unit length does not give a rotation.", "quantifier": "all angles and all unit vectors", "why_tests_cant": "Trigonometric identity over a continuum.", "anchors": ["aipy/coord.py:rot_m"]}
{"id": "C20", "title": "Equatorial/topocentric conversion is an isometry with the stated inverse", "statement": "eq2top_m(H,dec) is orthogonal with determinant 1, top2eq_m(H,dec) is its inverse, the direction at hour angle H and declination dec equal to the latitude maps to the zenith, and the north pole maps to the meridian.", "quantifier": "all hour angles and declinations", "why_tests_cant": "Continuum of angles.", "anchors": ["aipy/coord.py:eq2top_m", "aipy/coord.py:top2eq_m"]}
{"id": "C21", "title": "Angle to vector conversions round-trip", "statement": "radec2eq and thphi2xyz and azalt2top always return unit vectors and eq2radec, xyz2thphi, top2azalt recover the angles: theta in [0,pi], phi modulo 2 pi, and conversely converting any nonzero vector to angles and back gives the vector divided by its length.", "quantifier": "all angles and all nonzero vectors", "why_tests_cant": "Branch cuts and poles of a continuum.", "anchors": ["aipy/coord.py:thphi2xyz", "aipy/coord.py:xyz2thphi", "aipy/coord.py:radec2eq", "aipy/coord.py:eq2radec", "aipy/coord.py:azalt2top", "aipy/coord.py:top2azalt"]}
{"id": "C22", "title": "recenter is a lossless circular shift", "statement": "recenter(a, c) moves a[c] to the origin and permutes the pixels (nothing lost or duplicated); recenter by c then by d is recenter by c+d, and recenter by -c undoes recenter by c, for every array shape and every integer centre, also out of range or negative.", "quantifier": "all 2-D shapes, contents and centres", "why_tests_cant": "All shapes and all integer centres.", "anchors": ["aipy/img.py:recenter"]}
{"id": "C23", "title": "History text is wrapped without losing words", "statement": "word_wrap keeps every word of the text in order, breaking words only when they are too long for a line, and no output line exceeds the requested width.", "quantifier": "all strings, widths, indents and prefixes", "why_tests_cant": "Unbounded text.", "anchors": ["aipy/img.py:word_wrap"]}
{"id": "C24", "title": "Hermitian completion makes the dirty image real", "statement": "Img.append_hermitian doubles the data so that for each sample at (u,v) with value d there is one at (-u,-v) with conj(d) and the same weight; the image formed from the result is real and applying the grid to it gives a conjugate-symmetric uv matrix.", "quantifier": "all lists of uv samples", "why_tests_cant": "Unbounded data sets, symmetric pairing.", "anchors": ["aipy/img.py:Img.append_hermitian", "aipy/img.py:Img.put"]}
{"id": "C25", "title": "w-projection batches cover every sample exactly once", "statement": "ImgW.put splits any set of samples into consecutive batches of w such that every sample is gridded exactly once and all samples of a batch lie within the batch's w interval, and ImgW.get returns values in the order in which the samples were asked for.", "quantifier": "all sample sets and all wres > 0", "why_tests_cant": "Unbounded data; loop with data dependent batch boundaries.", "anchors": ["aipy/img.py:ImgW.put", "aipy/img.py:ImgW.get"]}
{"id": "C26", "title": "add2array accumulates every sample, whatever the order", "statement": "utils.add2array(a, ind, data) adds to every element of a the sum of the data whose index denotes it (negative indices counted from the end as in numpy), leaves all other elements unchanged, gives the same result for any reordering of the samples, and raises on any index outside the array.", "quantifier": "all arrays, index lists (with repetitions) and data lists", "why_tests_cant": "Duplicates and order independence over unbounded lists.", "anchors": ["aipy/utils/utils.cpp:add2array"]}
{"id": "C27", "title": "A rejected add2array leaves the array unchanged", "statement": "If add2array raises an error, the destination array has not been modified.", "quantifier": "all argument combinations that raise", "why_tests_cant": "Atomicity over all error points.", "anchors": ["aipy/utils/utils.cpp:add2array"]}
{"id": "C28", "title": "Gridding stays inside the uv matrix", "statement": "grid2D_c writes only inside the buffer and adds each weighted sample to the cell addressed modulo the two dimensions, for every sample position, footprint and matrix shape.", "quantifier": "all matrix shapes, all real sample positions, all footprints", "why_tests_cant": "Memory safety for all shapes and positions.", "anchors": ["aipy/_dsp/grid/grid.c:grid2D_c", "aipy/_dsp/grid/grid.c:grid1D_c"]}
{"id": "C29", "title": "Degridding interpolates", "statement": "degrid2D_c returns a weighted mean of buffer cells: it reproduces a constant uv matrix exactly, lies between the smallest and largest cell touched for real data, and is linear in the matrix.", "quantifier": "all matrices, positions and positive footprints", "why_tests_cant": "Continuum of positions.", "anchors": ["aipy/_dsp/grid/grid.c:degrid2D_c"]}
{"id": "C30", "title": "Writing to a HealpixMap touches exactly the addressed pixels", "statement": "Assigning values to a list of pixels (or coordinates) sets each addressed pixel to the sum of the values assigned to it and leaves every other pixel unchanged; reading it back gives those sums.", "quantifier": "all maps, pixel lists with repetitions, value lists", "why_tests_cant": "Unbounded lists with duplicates.", "anchors": ["aipy/healpix.py:HealpixMap.__setitem__", "aipy/healpix.py:HealpixMap.__getitem__"]}
{"id": "C31", "title": "Changing the pixel ordering does not move the sky", "statement": "change_scheme and from_hpm keep the value at every sky direction: after converting RING<->NEST the value at a pixel's direction is the same, converting twice restores the map, and the scheme attribute describes the ordering actually used.", "quantifier": "all map sizes and contents", "why_tests_cant": "All pixels of all map sizes.", "anchors": ["aipy/healpix.py:HealpixMap.change_scheme", "aipy/healpix.py:HealpixMap.from_hpm"]}
{"id": "C32", "title": "Spherical-harmonic coefficient indices are a bijection", "statement": "Alm coefficients (l,m), 0<=m<=l<=lmax, m<=mmax, are stored at distinct positions that fill the coefficient array exactly, so setting one coefficient changes no other, and lm_indices lists them in storage order.", "quantifier": "all lmax, mmax and all (l,m)", "why_tests_cant": "All index pairs for all sizes.", "anchors": ["aipy/healpix.py:Alm"]}
{"id": "C33", "title": "Facet ordering is a permutation", "statement": "The bit-reversed and locally shuffled orders used to visit facets list every facet exactly once for every number of facets (any N, not only powers of two), so mosaicking never skips or repeats a facet.", "quantifier": "all N", "why_tests_cant": "Universally quantified over sizes.", "anchors": ["aipy/map.py:_bit_reverse", "aipy/map.py:_bit_reverse_order", "aipy/map.py:_local_shuffle", "aipy/map.py:facet_centers"]}
{"id": "C34", "title": "Map.add computes the weighted mean independent of order", "statement": "After any sequence of Map.add calls a pixel's value is the weighted mean of everything added to it and its weight is the sum of the weights, regardless of the order and of how the samples are grouped into calls.", "quantifier": "all sequences of add calls with positive weights", "why_tests_cant": "History and order independence.", "anchors": ["aipy/map.py:Map.add", "aipy/map.py:Map.__getitem__", "aipy/map.py:Map.put"]}
{"id": "C35", "title": "reset_wgt keeps the measured sky", "statement": "Map.reset_wgt changes the weights of observed pixels to a constant without changing the value the map reports for any pixel.", "quantifier": "all maps", "why_tests_cant": "All map states.", "anchors": ["aipy/map.py:Map.reset_wgt", "aipy/map.py:Map.__getitem__"]}
{"id": "C36", "title": "CLEAN conserves the data", "statement": "At every exit of the CLEAN loops (tolerance, divergence, divergence with undo, best-so-far restore, iteration limit) residual + kernel (*) model equals the initial residual plus kernel (*) initial model, so no flux is created or lost.", "quantifier": "all images, kernels, areas, gains, tolerances and iteration limits (exact arithmetic), 1-D and 2-D", "why_tests_cant": "Loop invariant over unbounded iterations and all five exits.", "anchors": ["aipy/_deconv/deconv.cpp:Clean::clean_1d_r", "aipy/_deconv/deconv.cpp:Clean::clean_2d_r", "aipy/_deconv/deconv.cpp:Clean::clean_1d_c", "aipy/_deconv/deconv.cpp:Clean::clean_2d_c"]}
{"id": "C37", "title": "CLEAN puts components only inside the requested area", "statement": "Outside the area mask the model returned by CLEAN equals the initial model, apart from position 0 which receives a zero component.", "quantifier": "all images, kernels, masks, iteration limits", "why_tests_cant": "Invariant over all iterations.", "anchors": ["aipy/_deconv/deconv.cpp", "aipy/deconv.py:clean"]}
{"id": "C38", "title": "CLEAN with stop_if_div never returns something worse than it started from", "statement": "With stop_if_div the rms score sequence of accepted iterations never increases, a diverging last step is undone exactly, and the status reported (tol, divergence, maxiter) tells truthfully which exit was taken; at most maxiter components are added.", "quantifier": "all inputs", "why_tests_cant": "Property of the whole run for every input.", "anchors": ["aipy/_deconv/deconv.cpp", "aipy/deconv.py:clean"]}
{"id": "C39", "title": "CLEAN terminates", "statement": "For tol > 0 the CLEAN loop finishes for every input also when stop_if_div is off, although the iteration counter is then reset whenever the score improves.", "quantifier": "all inputs with tol > 0", "why_tests_cant": "Termination for all inputs.", "anchors": ["aipy/_deconv/deconv.cpp"]}
{"id": "C40", "title": "Simulated annealing only accepts improvements", "statement": "deconv.anneal returns a model whose score is no worse than that of the starting model, and the residual it returns belongs to the model it returns.", "quantifier": "all random draws, images, kernels and iteration limits", "why_tests_cant": "Quantifies over every sequence of random numbers.", "anchors": ["aipy/deconv.py:anneal"]}
{"id": "C41", "title": "Windows are symmetric", "statement": "Every window function generated by gen_window is symmetric about its centre (up to the convention of the window) and bounded by 1.", "quantifier": "all lengths L >= 2 and all window names", "why_tests_cant": "All lengths.", "anchors": ["aipy/dsp.py:gen_window"]}
{"id": "C42", "title": "Numbers survive the big-endian packing", "statement": "pack/unpack of 16, 32 and 64 bit integers and of 32/64 bit floats (as bit patterns, including NaNs and signed zeros) are mutually inverse for arrays of any length, negative 16-bit values keep their sign, and the bytes on disk are big-endian.", "quantifier": "all arrays of machine numbers", "why_tests_cant": "2^64 values, arbitrary lengths.", "anchors": ["aipy/_miriad/mir/pack.c"]}
{"id": "C43", "title": "Flag files behave like a growable bit array", "statement": "Any sequence of flag writes (at any offset and length) followed by reads returns for each position the last flag written there; positions never overwritten keep their old value; writes that share a 31-bit word with older flags do not disturb them.", "quantifier": "all histories of flag writes and reads", "why_tests_cant": "Word packing with partial words; arbitrary offsets, lengths and histories.", "anchors": ["aipy/_miriad/mir/maskio.c:mkwrite_c", "aipy/_miriad/mir/maskio.c:mkread_c", "aipy/_miriad/mir/maskio.c:mkflush", "aipy/_miriad/mir/maskio.c:mkfill"]}
{"id": "C44", "title": "Run-length and logical flags agree", "statement": "Reading flags in run mode lists exactly the maximal runs of set flags that logical mode reports, and writing runs then reading logical flags gives the same mask.", "quantifier": "all masks, offsets and lengths", "why_tests_cant": "All bit patterns of all lengths across word boundaries.", "anchors": ["aipy/_miriad/mir/maskio.c:mkread_c", "aipy/_miriad/mir/maskio.c:mkwrite_c"]}
{"id": "C45", "title": "Buffered item I/O behaves like a flat file", "statement": "For any sequence of hread/hwrite calls on an item at any offsets and lengths, a read returns for every byte the value most recently written to it, exactly as if there were no buffer, and after closing the file on disk holds the same bytes.", "quantifier": "all histories of reads and writes", "why_tests_cant": "Cache coherence over all histories.", "anchors": ["aipy/_miriad/mir/hio.c:hio_c", "aipy/_miriad/mir/hio.c:hwrite_fill_c", "aipy/_miriad/mir/hio.c:hdaccess_c"]}
{"id": "C46", "title": "Small header items survive close and reopen", "statement": "The header cache written by closing a dataset and read by opening it returns the same items with the same names and bytes, for any number of items and any item sizes up to the cache limit.", "quantifier": "all item collections", "why_tests_cant": "Serialisation of unbounded lists.", "anchors": ["aipy/_miriad/mir/hio.c:hflush_c", "aipy/_miriad/mir/hio.c:hcache_read_c"]}
{"id": "C47", "title": "UV variables read back as written", "statement": "Reading the record stream of a UV dataset reproduces, record by record, the values that every variable had when the record was written, although unchanged values are not written to the stream: the value of each variable after the n-th read is the last value assigned before the n-th write.", "quantifier": "all histories of variable assignments and record writes", "why_tests_cant": "Delta encoding over arbitrary histories of variables with changing lengths.", "anchors": ["aipy/_miriad/mir/uvio.c:uvputvr_c", "aipy/_miriad/mir/uvio.c:uv_scan", "aipy/_miriad/mir/uvio.c:uvnext_c", "aipy/miriad.py:UV.__setitem__", "aipy/miriad.py:UV.__getitem__"]}
{"id": "C48", "title": "Visibility preambles and flags read back as written", "statement": "The sequence of (uvw, time, baseline) preambles, data lengths and flags returned by successive reads equals the sequence written, although each part is written only when it changes.", "quantifier": "all sequences of written records", "why_tests_cant": "Change detection over arbitrary histories.", "anchors": ["aipy/_miriad/mir/uvio.c:uvwrite_c", "aipy/_miriad/mir/uvio.c:uvread_c", "aipy/_miriad/mir/uvio.c:uvread_preamble"]}
{"id": "C49", "title": "Scaled 16-bit data are accurate to one quantisation step", "statement": "Data stored as scaled 16-bit integers read back with every real and imaginary part within maxabs/32767 of the value written, never overflow 16 bits, and all-zero records read back as zero.", "quantifier": "all data vectors (exact arithmetic)", "why_tests_cant": "Error bound over a continuum.", "anchors": ["aipy/_miriad/mir/uvio.c:uvwrite_c", "aipy/_miriad/mir/uvio.c:uvread_line"]}
{"id": "C50", "title": "Decimated reading returns exactly every n-th integration", "statement": "After select('decimate', n, phase) successive reads return all records of the integrations whose index is congruent to the phase modulo n, each record once and in file order, and nothing else.", "quantifier": "all record sequences, all n >= 1 and phases", "why_tests_cant": "Filter over arbitrary sequences with state carried between reads.", "anchors": ["aipy/_miriad/miriad_wrap.cpp:UVObject_read", "aipy/_miriad/miriad_wrap.cpp:UVObject_select"]}
{"id": "C51", "title": "Copying a dataset with pipe is lossless", "statement": "Initialising a new file from an old one with init_from_uv and piping all records copies every record and the value of every variable, record by record, and appends (never replaces) the history.", "quantifier": "all datasets", "why_tests_cant": "Composition of reader and writer for every history.", "anchors": ["aipy/miriad.py:UV.init_from_uv", "aipy/miriad.py:UV.pipe", "aipy/_miriad/mir/uvio.c:uvcopyvr_c"]}
{"id": "C52", "title": "read_files groups visibilities without loss or duplication", "statement": "read_files returns for each antenna pair and polarisation the data and flags of all records of all files in file order, and the list of times with consecutive duplicates removed.", "quantifier": "all file lists and records", "why_tests_cant": "Unbounded data.", "anchors": ["aipy/miriad.py:read_files"]}
{"id": "C53", "title": "Header items keep their type and value", "statement": "Writing a header item with uv[name]=value and reading it back returns the same value for the declared type; numeric items read through a wider type convert exactly, and a missing item yields the default.", "quantifier": "all items and values", "why_tests_cant": "Every value of every type.", "anchors": ["aipy/miriad.py:UV._wrhd", "aipy/miriad.py:UV._rdhd", "aipy/_miriad/mir/headio.c"]}
{"id": "C54", "title": "The freqs header item round-trips", "statement": "uv['freqs'] = list then uv['freqs'] returns the same list of spectral windows for any number of windows.", "quantifier": "all lists of spectral window descriptions", "why_tests_cant": "Unbounded serialisation.", "anchors": ["aipy/miriad.py:UV._rdhd_special", "aipy/miriad.py:UV._wrhd_special"]}
{"id": "C55", "title": "Catalog selection returns each requested source once", "statement": "get_catalog/SrcCatalog.get_srcs returns the requested sources in the requested order and raises for unknown names; all sources are returned when none are named.", "quantifier": "all catalogs and request lists", "why_tests_cant": "Unbounded catalogs.", "anchors": ["aipy/phs.py:SrcCatalog.get_srcs", "aipy/src.py:get_catalog"]}
{"id": "C56", "title": "Julian date conversion is exact and invertible", "statement": "juldate2ephem and ephem2juldate are inverse.", "quantifier": "all dates", "why_tests_cant": "Continuum.", "anchors": ["aipy/phs.py:juldate2ephem", "aipy/phs.py:ephem2juldate"]}
{"id": "C57", "title": "Oversampling keeps the original samples in place", "statement": "interp.subsample(a, f) returns arrays of length len(a)*f holding a[k] with weight 1 at position k*f and zero value and zero weight everywhere else, so the total weight is the number of samples.", "quantifier": "all arrays and factors f >= 1", "why_tests_cant": "All sizes and factors.", "anchors": ["aipy/interp.py:subsample"]}
{"id": "C58", "title": "Img.get reads back what Img.put gridded", "statement": "After gridding a visibility at (u,v) into an empty Img, Img.get at the same (u,v) returns that visibility.", "quantifier": "all image sizes, resolutions, positions and values", "why_tests_cant": "The position is a continuum and the axis conventions of the two functions are only visible together.", "anchors": ["aipy/img.py:Img.put", "aipy/img.py:Img.get", "aipy/img.py:Img.get_indices"]}
{"id": "C59", "title": "ImgW.get answers from the current image", "statement": "ImgW.get returns values degridded from w-projections of the uv data gridded so far, also when put and get calls are interleaved: planes cached by an earlier get never outlive the data they were made from.", "quantifier": "all sequences of put and get calls", "why_tests_cant": "A cache bug shows only in particular call orders; call sequences are unbounded.", "anchors": ["aipy/img.py:ImgW.get", "aipy/img.py:ImgW.put"]}
{"id": "C60", "title": "Derived gains and phases follow the parameters", "statement": "After AntennaArray.set_params or select_chans, the gains, phase offsets and frequencies used by gen_phs, passband and sim are those computed from the current parameters and the current channel selection; none is left over from before.", "quantifier": "all sequences of set_params, select_chans and update calls", "why_tests_cant": "Staleness appears only after particular sequences of calls; sequences are unbounded.", "anchors": ["aipy/phs.py:Antenna.update", "aipy/phs.py:Antenna.select_chans", "aipy/phs.py:AntennaArray.select_chans", "aipy/amp.py:Antenna.update", "aipy/amp.py:Antenna.set_params"]}
{"id": "C61", "title": "Taking over a map of another resolution conserves the sky and leaves the source alone", "statement": "HealpixMap.from_hpm from a finer map puts into every pixel the sum of the finer pixels whose centres it contains, so the total is kept; the source map is not modified.", "quantifier": "all pairs of maps with different resolutions", "why_tests_cant": "The sums run over all pixels of both maps; a side effect on the source shows only in later uses of it.", "anchors": ["aipy/healpix.py:HealpixMap.from_hpm"]}
{"id": "C62", "title": "A map keeps accepting data after reset_wgt", "statement": "After Map.reset_wgt, add and put work as before: they accept fractional weights and the reported value is the weighted mean.", "quantifier": "all maps and all later calls", "why_tests_cant": "The failure depends on the history of the map object, not on the arguments of the failing call.", "anchors": ["aipy/map.py:Map.reset_wgt", "aipy/map.py:Map.add", "aipy/map.py:Map.put"]}
{"id": "C63", "title": "Map.put followed by reading returns what was put", "statement": "After Map.put an addressed pixel reports the weighted mean of the fluxes given for it in that call (the flux itself when it is named once, with positive weight) and every other pixel reports what it reported before.", "quantifier": "all maps, pixel lists and positive weights", "why_tests_cant": "Depends on repetitions and negative pixel numbers in the list; input space unbounded.", "anchors": ["aipy/map.py:Map.put", "aipy/map.py:Map.__getitem__"]}
{"id": "C64", "title": "Without stop_if_div CLEAN returns the best residual it has seen", "statement": "With stop_if_div off, CLEAN keeps going past increases of the score and on exit returns the model and residual with the smallest score met.", "quantifier": "all inputs for which the loop ends", "why_tests_cant": "The best of all iterations is a property of whole runs of any length.", "anchors": ["aipy/_deconv/deconv.cpp", "aipy/deconv.py:clean"]}
{"id": "C65", "title": "With pos_def CLEAN adds only positive flux taken from the current residual", "statement": "With pos_def set, every component CLEAN adds is positive (real input, positive kernel peak, positive gain) and is the gain times the largest positive value of the residual at that moment.", "quantifier": "all images, kernels, areas and iteration counts", "why_tests_cant": "Invariant over every iteration.", "anchors": ["aipy/_deconv/deconv.cpp"]}
{"id": "C66", "title": "lsq returns a consistent result", "statement": "The residual and the score reported by deconv.lsq belong to the model it returns, and the model lies within the bounds.", "quantifier": "all images, kernels, bounds, gains and iteration limits", "why_tests_cant": "Consistency of three results over all runs.", "anchors": ["aipy/deconv.py:lsq"]}
{"id": "C67", "title": "interpolate is a weighted mean of the samples", "statement": "interp.interpolate(ys, factor) returns factor samples per input sample; output k*factor is centred on input sample k; every output sample is the filter-weighted mean of (extended) input samples, so constants stay constant and a filter without negative taps cannot overshoot.", "quantifier": "all sample arrays, factors, orders and filters whose weights do not cancel", "why_tests_cant": "All sizes, factors and filters.", "anchors": ["aipy/interp.py:interpolate", "aipy/interp.py:subsample"]}
{"id": "C68", "title": "The phase applied is the delay of the source", "statement": "gen_phs at frequency f is exp(-2 pi i (f tau + offset)): tau is the component of the baseline along the source direction, the same whether the source is given as a computed RadioBody or as an equatorial vector, plus an ionospheric delay that falls with the square of the frequency; gen_uvw returns the baseline in wavelengths, with length f times the antenna separation.", "quantifier": "all arrays, sources, frequencies, sidereal times and ionospheric shifts", "why_tests_cant": "Identity over a continuum of geometries; two code paths (body and vector) have to agree.", "anchors": ["aipy/phs.py:AntennaArray.gen_phs", "aipy/phs.py:AntennaArray.gen_uvw", "aipy/phs.py:AntennaArray.refract", "aipy/phs.py:RadioBody.compute"]}
{"id": "C69", "title": "sim follows changes of the antennas", "statement": "After the antennas have been changed (positions, delays, offsets, gains, beams, active frequencies) between calls, sim answers with the visibility computed from the antennas as they are now.", "quantifier": "all histories of set_jultime, sim_cache, set_active_pol, sim and changes of parameters", "why_tests_cant": "Staleness of the simulation cache depends on the order of an unbounded number of calls and changes.", "anchors": ["aipy/amp.py:AntennaArray.sim", "aipy/amp.py:AntennaArray.sim_cache", "aipy/amp.py:AntennaArray._cache_bm", "aipy/fit.py:AntennaArray.set_params"]}
{"id": "C70", "title": "Appending to a data set keeps what was there", "statement": "A data set written in any number of sessions (UV(..,'new'), then UV(..,'append') any number of times) reads back as all the visibilities of all sessions in order, with preamble, data and flags, then the end of the file; every data set with at least one visibility can be appended to.", "quantifier": "all sequences of sessions, assignments and visibilities", "why_tests_cant": "Change caches, flag offsets and the table of variables must be carried over between sessions; tests append once at most.", "anchors": ["aipy/_miriad/mir/uvio.c:uvopen_c", "aipy/_miriad/mir/uvio.c:uvclose_c", "aipy/_miriad/mir/uvio.c:uvwrite_c", "aipy/_miriad/miriad_wrap.cpp:UVObject_init"]}
{"id": "C71", "title": "obstype describes the baselines of the data set", "statement": "After a data set is closed its item obstype is autocorrelation, crosscorrelation or mixed-auto-cross according to the baselines of all visibilities in it, whatever the sessions they were written in.", "quantifier": "all sequences of sessions and visibilities", "why_tests_cant": "Depends on all visibilities ever written and on how they are spread over sessions.", "anchors": ["aipy/_miriad/mir/uvio.c:uvflush_c", "aipy/_miriad/mir/uvio.c:uvopen_c", "aipy/_miriad/mir/uvio.c:uvwrite_c"]}
{"id": "C72", "title": "A pointed antenna looks where it is told", "statement": "After set_pointing(az, alt, twist) the beam of either feed is centred on (az, alt), the sky is seen undistorted (a rotation), twist turns the pattern about the pointing by the right-hand rule, changes of az and alt move the pattern by that much, and polarization y is at +pi/2 azimuth from polarization x.", "quantifier": "all pointings, twists, directions and beams", "why_tests_cant": "Identity of rotations over a continuum of pointings and directions; a wrong sign or axis is invisible at the default pointing with symmetric beams.", "anchors": ["aipy/amp.py:Antenna.set_pointing", "aipy/amp.py:Antenna.bm_response", "aipy/coord.py:rot_m", "aipy/coord.py:azalt2top"]}
{"id": "C73", "title": "The analytic beams are the documented Gaussians", "statement": "Beam2DGaussian's power pattern is the 2D Gaussian with standard deviation xwidth in the EW and ywidth in the NS direction; BeamPolynomial's response is a Gaussian of the zenith angle whose width is the documented series in cos(2 n az) and powers of freq; both are positive, at most one, one exactly on the axis, and fall away from it.", "quantifier": "all widths, polynomials, frequencies and directions", "why_tests_cant": "Continuum of directions and frequencies.", "anchors": ["aipy/amp.py:Beam2DGaussian.response", "aipy/amp.py:BeamPolynomial.response", "aipy/amp.py:BeamPolynomial._update_sigma"]}
{"id": "C74", "title": "Catalogs are selected by flux and are independent of each other", "statement": "get_catalog(cutoff=(jy,freq)) holds exactly the catalogued sources whose flux at freq is over jy, the flux being the power law jys*(freq/mfreq)**index that equals jys at mfreq; two catalogs got from get_catalog do not influence each other, and getting a catalog changes no source handed out before.", "quantifier": "all tables of sources, cutoffs, catalog lists and histories of get_catalog, set_params and compute calls", "why_tests_cant": "Source objects are shared through module globals; which call sees which change depends on the history of the whole process.", "anchors": ["aipy/src.py:get_catalog", "aipy/_src/misc.py:get_srcs", "aipy/_src/helm.py:get_srcs", "aipy/_src/helm.py:HelmboldtFixedBody.update_jys", "aipy/amp.py:RadioBody.update_jys"]}
{"id": "C75", "title": "Every pixel stands for the direction get_LM, get_top and get_eq give it", "statement": "In an image made with any center, the pixel q rows below and p columns right of the phase centre (nearest way around) has m=q/(dim*res) and l=-p/(dim*res), masked exactly outside the unit circle; image() shows in it the inverse transform of the uv matrix at (q,p); get_top and get_eq give the unit vectors with these direction cosines relative to (ra,dec); no two pixels stand for one direction; the delay of a source there is u l + v m + w n.", "quantifier": "all sizes, resolutions, centers, phase centres and baselines", "why_tests_cant": "Index arithmetic modulo the size and spherical geometry for all sizes and directions.", "anchors": ["aipy/img.py:Img.get_LM", "aipy/img.py:Img.get_top", "aipy/img.py:Img.get_eq", "aipy/img.py:Img._gen_img", "aipy/img.py:Img.image"]}
{"id": "C76", "title": "An image is the direct Fourier sum of its samples", "statement": "What Img.put adds to the image at the pixel (l,m) is the sum over the samples of value * exp(-2 pi i (u l + v m)) times the response of the gridding footprint; imaging is linear; a source of flux S in the data shows in its own pixel as S times the peak of bm_image, and nowhere else is the image brighter.", "quantifier": "all samples, weights, sizes, resolutions and source positions", "why_tests_cant": "Sum over all samples and pixels; the claim is about every position of the source.", "anchors": ["aipy/img.py:Img.put", "aipy/img.py:Img.image", "aipy/img.py:Img.bm_image", "aipy/_dsp/grid/grid.c"]}
{"id": "C77", "title": "W projection removes the w term", "statement": "Put into an ImgW, samples with w terms give in the pixel of a source what Img gives for the same u, v and weights with the w term removed, up to the error of using one w for each chunk of width wres in sqrt(w); for samples with w=0 ImgW.put is Img.put.", "quantifier": "all samples, w ranges, wres and source positions above the horizon", "why_tests_cant": "Convolution by FFT with a kernel indexed modulo the size; an analytic error bound over all samples.", "anchors": ["aipy/img.py:ImgW.put", "aipy/img.py:ImgW.conv_invker"]}
{"id": "C78", "title": "A simulated source appears in its own pixel", "statement": "Visibilities simulated with AntennaArray.sim for a point source in the direction get_eq gives for a pixel, phased to the image centre with phs2src and put at the coordinates of gen_uvw, appear in that pixel with the flux of the source times gains and beams.", "quantifier": "all arrays, times, baselines, channels, image sizes, phase centres and pixels above the horizon", "why_tests_cant": "Signs and frames of five modules must agree for every geometry; an agreement at sample directions does not show it.", "anchors": ["aipy/amp.py:AntennaArray.sim", "aipy/phs.py:AntennaArray.phs2src", "aipy/phs.py:AntennaArray.gen_uvw", "aipy/img.py:Img.get_eq", "aipy/img.py:ImgW.put"]}
{"id": "C79", "title": "Reading with a selection returns exactly the selected records", "statement": "After any sequence of select calls (antennae, auto, polarization, visibility number, and the others, joined by and/or), all() and read() return exactly the records the selection asks for, in the order written, each with its own preamble, data and flags, and with all variables at the values they had when that record was written; then the end of the file. This holds for any interleaving of select, read and rewind, and select('clear') followed by rewind() returns all records.", "quantifier": "all data sets, sequences of select, read and rewind calls and records", "why_tests_cant": "Skipped records must keep the flag offsets, the variables and the record counter in step, and an early stop is computed from the selection; every interleaving matters.", "anchors": ["aipy/_miriad/mir/uvio.c:uvread_c", "aipy/_miriad/mir/uvio.c:uvread_select", "aipy/_miriad/mir/uvio.c:uvread_maxvis", "aipy/_miriad/mir/uvio.c:uvselect_c", "aipy/miriad.py:UV.select", "aipy/miriad.py:UV.all"]}
{"id": "C80", "title": "Copying after select copies exactly what is selected", "statement": "When records are selected on an opened dataset with select and the dataset is then copied with init_from_uv and pipe, the copy holds the selected records, in order, and no others, and with each of them every variable reads as it did in the source at that record, also when it changed only in records that were skipped.", "quantifier": "all datasets written by aipy, all sequences of select calls on the newly opened file, all mfuncs that do not change the preamble", "why_tests_cant": "The variables copied with a record must cover all changes since the last record that was selected; which changes these are depends on the whole history of the file and on the selection.", "anchors": ["aipy/miriad.py:UV.pipe", "aipy/miriad.py:UV.select", "aipy/_miriad/mir/uvio.c:uvread_c", "aipy/_miriad/mir/uvio.c:uvcopyvr_c"]}
{"id": "C81", "title": "Records survive the buffers and files of the item layer", "statement": "Whatever was written to a UV data set with uv[name] = value and uv.write, in one session or in several sessions that append to it, is read back by a program that opens the data set later: every visibility of every session in order with its data, flags and preamble, then the end; every variable has after each record the value that was assigned last; and the same after a rewind. This holds although the calls that write and read the visdata item pass through buffers of 16384 bytes (and through a buffer of 64 bytes and the header file while it is small), with elements of one, two, four and eight bytes that may straddle those buffers, and whatever was in the memory of new buffers.", "quantifier": "any history of variable assignments, records and sessions (any lengths, types and number of variables up to 128), with at most 2 GiB of data; any contents of uninitialised buffers; any number of records read, any rewind", "why_tests_cant": "a straddling element or a buffer that is written with a gap shows only for particular lengths and orders of the variables before it; a test has a fixed data set and compares with the bytes it produced itself", "anchors": ["aipy/_miriad/mir/hio.c:844-1117", "aipy/_miriad/mir/uvio.c:1679-1773", "aipy/_miriad/mir/uvio.c:1308-1338", "aipy/_miriad/mir/uvio.c:1861-1950", "aipy/_miriad/mir/uvio.c:2796-2890"]}
{"id": "C82", "title": "A data set directory carries everything needed to read or append to it", "statement": "A program that opens a data set knowing only its directory finds what all previous sessions wrote: after n records every variable (with a name of visible characters) has the value, type and length it had after n records were written, the visibilities are those written, the end is where the last session stopped, header items have the values last assigned, and ncorr counts the flags of all sessions, so that a program that appends goes on where the last one stopped.", "quantifier": "all sequences of programs that write variables of any type and size, visibilities and header items to one data set, closing it and opening it to append any number of times, and all memory contents", "why_tests_cant": "the names and types go through a text item, the end and the counts through header items, the values through a stream with buffers; which of them is rewritten depends on what earlier sessions left; tests write in one session and compare one variable", "anchors": ["aipy/_miriad/mir/uvio.c:706-945", "aipy/_miriad/mir/uvio.c:1115-1257", "aipy/_miriad/mir/hio.c:1175-1270", "aipy/_miriad/mir/headio.c:157-340", "aipy/miriad.py:UV"]}
{"id": "C83", "title": "Adding and subtracting data sets works record by record", "statement": "uv_addsub.py makes a data set that has a record for each record of the first file: with the preamble and the variables of the first, flagged wherever one of the two is flagged, with the sum (with --sub the difference) of the two where neither is flagged and zero elsewhere.  When the second file has fewer records, the script raises and does not go on with data that was not added.", "quantifier": "all pairs of data sets written with aipy with the same number of channels, any number of records, any flags and changes of variables", "why_tests_cant": "the second file is read in step with the first by a callback with a state of its own; a record out of step or a wrong combination of flags shows only for particular flags and lengths", "anchors": ["scripts/uv_addsub.py:20-39", "aipy/miriad.py:269-286"]}
{"id": "C84", "title": "The arrays given to sim_cache belong to their sources", "statement": "After sim_cache(eqs, jys, mfreqs, ionrefs, srcshapes), with arrays that hold one entry per source or numbers that hold for all of them, every sim call on every baseline gives the sum over the sources above the horizon of visibilities computed from that source's own position, fluxes, reference frequency, refraction and shape; in particular with the columns that SrcCatalog.get_crds, get_jys and get return, whatever the order in which the sources were added.", "quantifier": "all numbers of sources and channels, all entries, all sequences of baselines after one sim_cache", "why_tests_cant": "Compression, in-place reshaping, squeezing and broadcasting must keep every column aligned for every set of sources that is up; shapes that coincide by accident hide mistakes.", "anchors": ["aipy/amp.py:AntennaArray.sim_cache", "aipy/amp.py:AntennaArray.sim", "aipy/phs.py:AntennaArray.gen_phs", "aipy/phs.py:AntennaArray.resolve_src", "aipy/phs.py:AntennaArray.refract", "aipy/phs.py:SrcCatalog.get"]}
{"id": "C85", "title": "mdlvis.py puts into each record the sky at that record's time", "statement": "mdlvis.py makes from a data set one whose cross-correlations hold the visibility of the catalog at the time, for the antennas and in the polarisation of their own record (mode sim), or the measured data with this visibility subtracted or added, with zeros in flagged channels, whatever the order of the records; adding and then subtracting gives back the data that were not flagged, and subtracting from simulated data gives zero.  Without an input file it writes one record for every time, pair of antennas i <= j and polarisation.", "quantifier": "all data sets (any order of times, baselines and polarisations), catalogs, arrays with any gains, offsets and beams", "why_tests_cant": "The script keeps a time and a cache from one record to the next; a stale cache shows only for particular orders of times, antennas and polarisations.", "anchors": ["scripts/mdlvis.py:105-145", "scripts/mdlvis.py:147-227", "aipy/amp.py:AntennaArray.sim", "aipy/amp.py:AntennaArray.sim_cache"]}
{"id": "C86", "title": "apply_cal.py removes gains and phase offsets", "statement": "Data that an array with any non-zero complex gains and any phase offsets measures of a sky become, after apply_cal.py with that calibration, the data of the same array with unit gains and no offsets, phased to the zenith: two arrays that differ only in gains and offsets give the same calibrated records, a point source at the zenith gets phase zero on every baseline and in every channel, and between antennas of equal height the result is the unphased visibility; flags and preambles are kept.", "quantifier": "all arrays, gains, offsets, skies, baselines, polarisations and channels", "why_tests_cant": "Conjugations of gains and signs of phases in two modules must match for every geometry and frequency.", "anchors": ["scripts/apply_cal.py:22-28", "aipy/amp.py:AntennaArray.passband", "aipy/phs.py:AntennaArray.phs2src", "aipy/phs.py:AntennaArray.gen_phs", "aipy/pol.py:AntennaArray.get_phs_offset"]}
{"id": "C87", "title": "A copied data set is complete on disk", "statement": "A script that opens a data set, makes a new one from it with init_from_uv and pipe, and closes both leaves a directory from which any later program reads: exactly the records (all of them, or those mfunc returned) and then the end; with each record the value every variable had with that record in the source, the overridden variables with their new values and the excluded ones not at all; the history of the source with the appended text after it; every other header item of the item table as in the source, overridden or excluded; and no item that is not in the item table.", "quantifier": "all data set directories written by any number of programs with aipy, all overridden and excluded variables and items, all texts, all mfunc that keep the preamble, all memory contents", "why_tests_cant": "records, variables and header items share one directory and two readers/writers with their own buffers; that nothing of one overwrites the other, and that nothing but the directory is needed to read the copy, is a statement about all data sets", "anchors": ["aipy/miriad.py:247-286", "aipy/_miriad/mir/uvio.c:706-945", "aipy/_miriad/mir/uvio.c:1340-1380", "aipy/_miriad/mir/hio.c:544-646"]}
{"id": "C88", "title": "The parallactic angle points to the zenith", "statement": "ParAng(ha, dec, lat) is the position angle, measured from north through east, of the zenith as seen from a source: the great circle that leaves the source at this angle reaches the zenith after the zenith distance that top2azalt reports, and no other angle does; on the meridian it is 0 south and 180 degrees north of the zenith, positive in the west and negative in the east.", "quantifier": "all hour angles, declinations, latitudes and sidereal times (uniqueness away from zenith and nadir)", "why_tests_cant": "a wrong sign, swapped arguments of arctan2 or a wrong quadrant can agree on any finite list of positions; the geometric meaning is a statement about all of them", "anchors": ["aipy/pol.py:43-50", "aipy/coord.py:top2azalt", "aipy/coord.py:eq2top_m", "aipy/coord.py:radec2eq"]}
{"id": "C89", "title": "phs2src.py turns phases and keeps amplitudes", "statement": "phs2src.py keeps every record with its preamble, flags and, for auto-correlations, its data.  With -s zen the data of cross-correlations are turned by the delay of their baseline towards the zenith and by the phase offsets of their antennas; with --setphs the amplitudes are kept and phasing to the zenith afterwards gives real amplitudes; without a source the phase offsets are removed; with the name of a source or --rot_uvw the data are phased to the source or the coordinates are rotated.", "quantifier": "all data sets, arrays, gains, offsets, polarisations, options", "why_tests_cant": "the factor in the script must match the one in gen_phs for every offset, and the paths through the options are many; a test with zero or whole-turn offsets sees nothing", "anchors": ["scripts/phs2src.py:22-53", "aipy/phs.py:339-400", "aipy/pol.py:AntennaArray.get_phs_offset"]}
{"id": "C90", "title": "filter_src.py separates the delays of a source from the rest", "statement": "filter_src.py -d dw extracts (-e) from every cross-correlation without flags exactly the components whose delay towards the source is -dw..dw-1 bins, or removes exactly these; each record gets its own result whatever the order of baselines, polarisations and times; a source below the horizon gives nothing.  Extracted and filtered data add up to the input in all channels that are not flagged, extracting twice changes nothing, filtering what was extracted leaves nothing, and what stands under the flags has no influence.  A source that does not change with time passes any delay-rate filter (-r).  Records of polarisations that are not selected and data with --passband are treated accordingly.", "quantifier": "all data sets, numbers of channels, windows, flags, orders of records, source phases", "why_tests_cant": "two passes over the file are joined by counters per baseline and polarisation, and CLEAN with a kernel from the flags stands between two transforms; a row taken for another one, or a slice that is off by one, shows only for particular orders, widths and data", "anchors": ["scripts/filter_src.py:66-175", "aipy/deconv.py:24-70", "aipy/phs.py:393-400"]}
{"id": "C91", "title": "The sky-pass filter keeps the delays of the sky", "statement": "filter_src.py -d -1 without a source (gen_skypass_delay) splits each unflagged cross-correlation into the delays that something on the sky can have on that baseline (with a margin: one and a half times the light travel time between the antennas, also where the antennas have phase offsets) and the others: with -e every tone at a delay within that range is written unchanged and every tone more than one and a half bins beyond is removed, without -e it is the other way round; so a source in any direction passes the extraction unchanged; all other parts of the record, and auto-correlations, are as they were.", "quantifier": "for all arrays, numbers of channels, channel widths, polarisations and files of records", "why_tests_cant": "The window is made from every baseline's length by two roundings and a python slice with a negative end, so tests of a few baselines do not show for which lengths the slice is empty or the window misplaced.", "anchors": ["scripts/filter_src.py:12-28", "scripts/filter_src.py:49-58", "scripts/filter_src.py:120-132"]}
{"id": "C92", "title": "convert_m is the rotation that convert performs", "statement": "For every pair of known coordinate systems and epochs, coord.convert_m(isys, osys, iepoch, oepoch) is a rotation matrix, and multiplying the vector of a direction in isys by it gives the direction that coord.convert returns for it (given as a vector of any length or as a pair of angles); converting on to a third system multiplies the matrices, the reverse conversion is the inverse matrix, system to itself at the same epoch is the identity, convert there and back gives the same direction, and unknown systems raise. (The NOTE in the docstring, that the arguments must be reversed to get this matrix, is wrong unless the matrix is its own inverse.)", "quantifier": "for all systems, epochs, directions; ephem's conversions taken to be rotations between frames", "why_tests_cant": "The matrix is filled column by column in the array the directions are read from, through angles and back; a mistake in the order of arguments is invisible for systems related by a half turn or to themselves, and the statement is over a continuum of directions.", "anchors": ["aipy/coord.py:15-38"]}
{"id": "C93", "title": "modmap.py puts every source into the map with its flux", "statement": "modmap.py adds to the map, for every source, its flux times sscale in equal parts to the pixels that the source covers (all pixels of its ellipse, or the one pixel at its position if it is a point or covers no pixel centre), leaving all other pixels as they were, so that the flux of the map grows by exactly the sum of the fluxes whatever the order of the sources; with index maps the first gets the spectral index of the last source covering a pixel and the others stay; the place is that of the source in the coordinate system and epoch of the map.", "quantifier": "for all maps with weights 0 or 1, pixelisations, coordinate frames, lists of sources and options", "why_tests_cant": "Whether flux is conserved depends on overlaps of sources, the weights of the map and the position of pixel centres; whether a place is right depends on combinations of system, epoch and right ascension that no list of cases exhausts.", "anchors": ["scripts/modmap.py:81-123", "aipy/map.py:13-140"]}
{"id": "C94", "title": "What maxent reports about its fit is true", "statement": "deconv.maxent(im, ker, var0, ...) returns a model image and an info dictionary.  'res' is the image minus the returned model convolved with the kernel.  'term' is 'tol' only if the squared gradient of entropy minus alpha times chi squared, in the metric of its curvature and relative to the curvature alone, is below tol at the returned model and alpha; the number of steps is between 1 and maxiter, and is maxiter if the loop was not left.  'success' is False exactly if the fit diverged.  Every step made is the fraction gain of the Newton step for the maximum of the entropy under the constraint that chi squared is N var0, brought within the bounds.  Gradient and curvature are the derivatives of the objective for a kernel that is a multiple of the delta function.  The model returned keeps within lower and upper, and an image that the starting model explains perfectly, or one of negative mean, is not an error.", "quantifier": "every image, kernel, variance, starting model, gain, tolerance, bounds and number of steps", "why_tests_cant": "The claim is about the last of an unbounded number of iterations in real numbers; a test sees one image and one path of the iteration.", "anchors": ["aipy/deconv.py:134-203"]}
{"id": "C95", "title": "maxent_findvar searches until it succeeds", "statement": "deconv.maxent_findvar(im, ker, var, ...) returns the result of maxent for the first variance, in the order of its ever wider search around var, for which maxent converges (or, with maxiterok, does not diverge).  If maxent converges for all variances in some interval, however small and far away, the search ends.  Without var it starts from a fraction of the variance of an lsq residual.", "quantifier": "every image, kernel, starting variance and bounds", "why_tests_cant": "The search has no bound on its length; tests can only see searches that end quickly.", "anchors": ["aipy/deconv.py:205-245"]}
{"id": "C96", "title": "The sources named on the command line are the sources simulated", "statement": "scripting.parse_srcs(src, cat) followed by src.get_catalog(srclist, cutoff, catalogs): 'all' gives all sources of the catalogs named in cat, 'jy/freq' those above the cutoff, and a comma separated list gives exactly the sources in the list: a position ra_dec becomes a new source at that position with the text as its name, a name is the source of that name from the last of the catalogs that has it; nothing else is in the catalog.", "quantifier": "every list of names and positions, every list of catalogs and their contents, every reading of numbers", "why_tests_cant": "The grammar is ambiguous (names, positions and cutoffs share characters) and the lists are unbounded; tests try a few strings with the shipped catalogs.", "anchors": ["aipy/scripting.py:149-170", "aipy/src.py:10-26", "aipy/_src/six_c.py:31-36", "aipy/_src/seven_c.py:30-35"]}
{"id": "C97", "title": "word_wrap only moves line ends", "statement": "img.word_wrap(string, width, ind1, ind2, prefix), which to_fits uses for the history of an image: the words of the string come out in their order, each in one piece unless it is longer than a line has room for, in which case it is cut into pieces that fit and nothing of it is lost; every line is shorter than width; a line ends only where the next word would not have fitted; the first line starts with prefix and ind1 spaces and the others with prefix and ind2 spaces.", "quantifier": "every string, width, indentation and prefix", "why_tests_cant": "Whether a line is too long or a word is lost depends on where the spaces of an arbitrary text fall relative to the width, and tests look at one text and one width.", "anchors": ["aipy/img.py:20-45"]}
{"id": "C98", "title": "Correlations in a polarisation are those of the two feeds", "statement": "With antennas of two feeds x and y, the active polarisation may be any of xx, xy, yx, yy and the four Stokes parameters and nothing else.  In a linear polarisation pq the delay offset of the baseline is the offset of feed q of the second antenna minus that of feed p of the first, the passband is the gain of the one times the conjugate of the gain of the other, the primary beam is the product of their responses, and swapping antennas and feeds conjugates the simulated visibility.  In a Stokes parameter the beam between like antennas is the mean (I, Q) or the geometric mean (U, V) of the beams of the correlations that make it up, offsets are those that the correlations have in common, and the visibility can be simulated.", "quantifier": "every pair of antennas, offsets, gains, beams, pointing, direction and frequency", "why_tests_cant": "The claim is an identity in all offsets, gains and directions; tests with equal feeds or equal antennas cannot tell one feed, or one sign, from the other.", "anchors": ["aipy/pol.py:64-87", "aipy/pol.py:141-159", "aipy/amp.py:299-311", "aipy/amp.py:366-381"]}
{"id": "C99", "title": "pull_pol.py copies exactly the records of the polarisations asked for", "statement": "pull_pol.py -p <names> makes of a data set a new one that has exactly those records whose polarisation (the value of the variable pol when the record is read) is one of the comma-separated names, in the order and with the data, flags, u v w, times and baselines they had; when a record of the copy is read every variable has the value it had in the source at that record, also where that value was set with a record that was left out. The header items are unchanged, and the history has one line with the list appended. If the source has a record whose polarisation code has no name, the script raises.", "quantifier": "all data sets written by the library with whatever records and variables, all lists of names, all contents of the disk", "why_tests_cant": "A test copies one file; which values of variables survive the omission of the records they were set with depends on the sequence of records, changes of variables and omitted runs, which is unbounded.", "anchors": ["scripts/pull_pol.py:28-42", "aipy/miriad.py:247-286", "aipy/_miriad/mir/uvio.c:1340-1380"]}
{"id": "C100", "title": "xrfi.py flags what was flagged, zero or given", "statement": "scripts/xrfi.py makes of each file a copy with the same records, variables and items. In a record a channel is flagged, and its value zero, exactly if it was flagged in the file (unless --reflag), its value was zero, or it is one of the channels of -c; all other values are unchanged. The history has one more line that names the options. A channel that does not exist raises an error. The modes of --flagmode and --share flag more; the default mode works.", "quantifier": "all data sets written by the library with whatever records and variables, all options, all contents of the disk", "why_tests_cant": "Tests can run the script on a file or two. Whether a record gets its own flags depends on which records share polarisation, antennas and time anywhere in a file of any length, and on the values of variables at the second of two passes.", "anchors": ["scripts/xrfi.py:14-141", "aipy/rfi.py:24-40", "aipy/miriad.py:247-304"]}
{"id": "C101", "title": "uv[name] finds every variable and item of a data set and nothing else", "statement": "For a data set written by the library, in however many sessions, uv.vars() lists the variables that were given a value (or declared), each once, with the type they were given; uv.items() lists the header items that were assigned, and vartable. Right after UV(filename) uv[name] is the value of the variable in the first record; after any number of calls of read it is what the program that wrote the data set had last assigned when it wrote that record. uv[name] of an item is what was last assigned to it, an IOError if nothing was, and a name that is neither a variable nor a known item is a KeyError.", "quantifier": "all sequences of assignments, records and sessions, all names, all contents of the disk, any number of records read", "why_tests_cant": "A test reads the variables of one file. Which variables the table lists and which value is current depends on the whole history of assignments, and the table goes through a text item that two parsers (C and Python) read.", "anchors": ["aipy/miriad.py:73-107", "aipy/miriad.py:182-189", "aipy/_miriad/mir/uvio.c:1115-1220", "aipy/_miriad/miriad_wrap.cpp:226-304"]}
{"id": "C102", "title": "remove_spikes fits the samples that are not spikes", "statement": "rfi.remove_spikes(data, mask) fits a polynomial to the samples that are neither masked nor farther from the fit than the root mean square distance, for iter rounds: what masked samples hold does not influence the result; samples of a polynomial of at most the order of the fit are given back exactly and continued over masked samples; a single spike on constant samples is removed; each round excludes exactly the outliers among the samples still in use.", "quantifier": "all samples, masks, orders, numbers of iterations and least-squares fits", "why_tests_cant": "Real-valued samples of any length, any mask, and an iteration that changes the mask.", "anchors": ["aipy/rfi.py:remove_spikes"]}
{"id": "C103", "title": "mk_img.py puts every valid sample of a pointing into its image", "statement": "mk_img.py writes one image for every pointing (from --skip on) that has samples, numbered from --cnt on without gaps, and each image is made of all samples of its pointing, each once: the channels that are neither flagged nor shorter than --minuv, of the records taken while the pointing is above --altmin. With --snap=n it writes one image for every n integrations, of the samples of these integrations and no others, and with --src=zen phased to the zenith during them. When the buffer is emptied into the matrices (--buf_thresh) does not matter.", "quantifier": "all sequences of records and pointings, all channels, flags and weights, all buffer sizes and snapshot lengths", "why_tests_cant": "Which samples an image has depends on how the number of records that give samples lies to the size of the buffer, on what pointings came before, and on when the time changes; the scripts have no tests, and a test images one short file with a buffer larger than the file.", "anchors": ["scripts/mk_img.py:140-258", "aipy/img.py:119-190"]}
{"id": "C104", "title": "mk_map.py makes the map of weighted means of the images", "statement": "mk_map.py puts images of parts of the sky into one map: each pixel of a new map has the mean of the values of all pixels, of all images, whose direction falls into it, weighted with the Gaussian of --fwidth around the centre of the image, and its weight is the sum of these weights; images put into a map that is there add their weights and weighted values to it. The direction of an image pixel is that at its offset from the centre in the header, in the frame of the date of the observation, precessed to J2000; pixels beyond the horizon are left out.", "quantifier": "all sequences of images of any sizes, resolutions, positions and dates, all frames, all pixelisations and widths", "why_tests_cant": "How many pixels of an image share a pixel of the map depends on resolution, position and nside; a test of a single image in a new map does not see what is done to earlier images, and the scripts have no tests.", "anchors": ["scripts/mk_map.py:27-74", "aipy/map.py:Map.add", "aipy/img.py:Img.get_eq", "aipy/img.py:Img.get_top", "aipy/coord.py:convert_m"]}
{"id": "C105", "title": "A catalog read from a survey file has the sources of the file", "statement": "After fromfile of one of the catalogs of aipy._src (3C, 3CR, 4C, 6C, 7C, GB6, NVSS, Parkes, TXS, VLSS, WENSS, PAPER, MRT) the catalog has one source for every row of the table, under the name of the row, with the right ascension and declination of the row, its flux in Jansky, its spectral index where the table has one, and the frequency of the survey; header, comment and separator lines give none. A row without a flux gives no source and stops nothing.", "quantifier": "all files made of comment lines, other lines and rows of the layout of the survey, with any values in the other columns; all surveys", "why_tests_cant": "The files of most surveys are not shipped, and a wrong column or unit shows only in sources that are compared one by one with the table.", "anchors": ["aipy/_src/three_c.py:ThreeCCatalog.fromfile", "aipy/_src/four_c.py:FourCCatalog.fromfile", "aipy/_src/nvss.py:NVSSCatalog.fromfile", "aipy/_src/parkes.py:ParkesCatalog.fromfile", "aipy/_src/paper.py:PAPERCatalog.fromfile", "aipy/_src/mrt.py:MRTCatalog.fromfile"]}
{"id": "C106", "title": "get_catalog gives the sources of the files on every call", "statement": "Whatever calls of get_catalog a process makes, each gives the sources of the files of the catalogs it names (those asked for, or those above the cutoff), as if it were the only call, and raises if a file cannot be read.", "quantifier": "all sequences of calls with any names, cutoffs and catalogs, all files", "why_tests_cant": "Tests make one call per process; what an earlier failed call or a changed source leaves behind shows only in later calls.", "anchors": ["aipy/src.py:get_catalog", "aipy/_src/three_c.py:get_srcs", "aipy/_src/six_c.py:get_srcs"]}
{"id": "C107", "title": "Sources of the Culgoora catalog are as documented", "statement": "A source of the Culgoora catalog with both an 80 MHz and a 160 MHz measurement has the flux at 160 MHz, mfreq .160 and the spectral index of the table; one with a single measurement has the flux and frequency of that measurement and index 0. Upper limits are not measurements. get_metadata gives the measurements, None where there is none.", "quantifier": "all rows of the table with any combination of fluxes, limits and index", "why_tests_cant": "The catalog is not shipped, and the combinations of limits and missing values are rare rows of a large table.", "anchors": ["aipy/_src/culgoora.py:CulgooraCatalog.fromfile", "aipy/_src/culgoora.py:CulgooraCatalog.get_metadata"]}
{"id": "C108", "title": "The Helmboldt catalog has the spectra and positions of its tables", "statement": "After HelmboldtCatalog.fromfile(posfile, fitfile) the catalog has every source of the table of fits at the position of its measurements, and its flux after compute or update_jys is at every frequency the one of the fit: equation 1 of Helmboldt et al. where A and B are given, with C and D where they are, else the flux at 74 MHz with the slope of the power law. get_metadata gives the measured (frequency in GHz, flux, error) of each source in the order of the file, get_ncomp the number of components, get_rms the rms of the fit or -1. The attribute jys is the flux at mfreq.", "quantifier": "all pairs of files in the byte-by-byte layout of the tables, with any number of sources, measurements and title lines; all frequencies", "why_tests_cant": "The columns are cut out by position and the missing ones fall away, so a row of another form gives another spectrum without an error; a test compares a few of 388 sources.", "anchors": ["aipy/_src/helm.py:HelmboldtCatalog.fromfile", "aipy/_src/helm.py:HelmboldtFixedBody.update_jys", "aipy/_src/helm.py:HelmboldtCatalog.get_metadata", "aipy/_src/helm_fit.txt", "aipy/_src/helm_pos.txt"]}
{"id": "C109", "title": "xtalk3.py takes the crosstalk from a data set", "statement": "xtalk3.py without options writes a copy <file>x of every file named, with all its records. Autocorrelations keep their data; from every other record is taken, in each channel, the mean over the file of the unflagged data of its baseline and polarisation. So in the copies the unflagged data of each baseline, polarisation and channel have mean zero, and a signal constant in time added to a baseline leaves the copies unchanged. Files already copied are skipped, other files are not touched.", "quantifier": "all lists of files with any records, antennas, polarisations, flags and data", "why_tests_cant": "The mean runs over all records of a file and the flags; a test has a few records and one pattern of flags.", "anchors": ["scripts/xtalk3.py:68-108", "aipy/pol.py:ijp2blp"]}
{"id": "C110", "title": "xtalk3.py -o, -r and -i model the crosstalk of a day", "statement": "After xtalk3.py -o on the files of a day, -i on files of the same times takes from each record the mean found in the file of its time. After -r in between, it takes the level of the baseline in the file of its time (the mean size over the channel range) times the mean shape of the baseline over the day (each file divided by its level, averaged over the files with data in the channel). When the crosstalk of the files of the day is one shape times positive levels, that is the crosstalk of the file. A file without a stored crosstalk is skipped by -r.", "quantifier": "all days of files with any records and flags, all channel ranges with data", "why_tests_cant": "The three runs communicate through files named by time; that levels go to the wrong file shows only when a file or a baseline is missing from one of the runs.", "anchors": ["scripts/xtalk3.py:38-108"]}
{"id": "C111", "title": "combine_freqs.py averages adjacent channels", "statement": "combine_freqs.py -n N writes for every file a copy <file>m with N channels and all its records. Each new channel is the mean of the unflagged channels it is made of, and has the mean of their frequencies as its frequency. It is flagged if any of them is with -c, if all of them are with -d, and otherwise if more of them are flagged than not; flagged channels are zero. A file that has N channels is copied as it is. Copies that exist are not written again. With -u all records are in one file, each with its values of the variables.", "quantifier": "all data sets (numbers of channels, records, data, flags, variables), all N dividing the number of channels, all options and lists of files", "why_tests_cant": "a test combines one spectrum; the flags depend on every number of flagged channels, and the frequency axis and the variables of the second file are not what a test of the data sees", "anchors": ["scripts/combine_freqs.py:30", "aipy/miriad.py:146"]}
{"id": "C112", "title": "apply_bp.py applies the bandpass once", "statement": "apply_bp.py writes for every file a copy <file>b without the bandpass and the items that go with it, and with all records: their data are multiplied by the scale and by the bandpasses of their two antennas (by one if the file has no bandpass of nants x nchan values); data of autocorrelations are linearised before, by the option null (not at all), digi or full (the fitted polynomial, scaled so that 10 stays 10) or comb (the average of the three). Flags and everything else in the records are kept. Every linearisation leaves 10 at 10, another name raises before anything is written, and applied to a copy again the bandpass is not multiplied a second time.", "quantifier": "all lists of files, with any bandpass, records, scale and fitted polynomials", "why_tests_cant": "a test applies one bandpass to one file; that every record of every file has the right antennas' rows, and that a second run does not apply the bandpass twice, is for all files", "anchors": ["scripts/apply_bp.py:121", "scripts/apply_bp.py:145"]}
{"id": "C113", "title": "cal.get_aa and cal.get_catalog give what the calibration module gives", "statement": "cal.get_freqs gives the frequency sfreq + k sdf for channel k. cal.get_aa(key, ...) gives the array that the function get_aa of the module makes for these frequencies (or the frequencies given). cal.get_catalog(key, ...) gives what the function get_catalog of the module gives, and if there is no such function, or no key, the catalog of src.get_catalog; other errors in the module are raised.", "quantifier": "all modules, keys, frequencies and selections, python 2 and python 3", "why_tests_cant": "a test imports one module in one python; whether a name bound by exec is seen by the function depends on the python and on whether the function assigns to it elsewhere", "anchors": ["aipy/cal.py:13", "aipy/cal.py:16", "aipy/cal.py:32"]}
{"id": "C114", "title": "flux_cal.py divides out passband, beam and flux", "statement": "flux_cal.py writes for every file a copy, named by the options, with all its records: their data are divided by the product of the passband of the baseline (-p), the beam response of the baseline in the direction of the source at the time of the record (-b) and the spectrum of the source at that time (-f); where the product is zero they are kept. Flags and everything else are kept, and what one record or file leaves behind does not affect the next. Without a source -b and -f raise before anything is written.", "quantifier": "all options, lists of files, records in any order of times, baselines and polarisations, all responses", "why_tests_cant": "a test calibrates one file with one option; the time, the cache of the array and the spectrum are carried from record to record and from file to file", "anchors": ["scripts/flux_cal.py:28", "scripts/flux_cal.py:46", "aipy/amp.py:299", "aipy/amp.py:314"]}
{"id": "C115", "title": "amp_close.py finds the gains of the antennas from amplitudes that close", "statement": "When the amplitudes of all baselines used are products of one gain per antenna, and the baselines determine the gains, amp_close.py prints gains in the ratios of these gains, with a mean of one over the flux of the sources, whatever is flagged.", "quantifier": "for all sets of records with any number of antennas, polarisations, repeats and channels, all positive gains, all fluxes", "why_tests_cant": "The result is the solution of a system of linear equations for logarithms whose size and rank depend on the baselines present; a test compares a handful of arrays, with a tolerance that hides which power of the gain comes out.", "anchors": ["scripts/amp_close.py:53-117"]}
{"id": "C116", "title": "BeamAlm gives a beam whose spherical harmonic coefficients are polynomials in frequency", "statement": "BeamAlm(freqs, lmax, mmax, deg, nside, coeffs) responds in direction d and channel frequency f with the sum over k = 0..deg of f**k times the sky that the spherical harmonic coefficients coeffs[k] describe, interpolated between the pixels at d; powers without coefficients contribute nothing; coefficients of the wrong number, or for a power that is not between 0 and deg, raise.", "quantifier": "all frequencies, lmax, mmax, deg and nside, all dictionaries of coefficients, all directions", "why_tests_cant": "Which power a coefficient array multiplies depends on reversals, on python's negative indices and on a defaulted positional argument; a test with deg 0 or a constant beam sees none of them.", "anchors": ["aipy/amp.py:180-214", "aipy/healpix.py:278"]}
{"id": "C117", "title": "img.to_fits and img.from_fits are inverse to each other", "statement": "img.to_fits(filename, data, ...) writes a file from which img.from_fits gives back the data and the keywords given (object, telescope, instrument, observer, dates, epoch, origin; for each axis its name and, for ra, dec and freq, its value and step, that of ra counted negative). It leaves other files alone, and with clobber=False one of the same name as well. freq is the frequency of the first entry; ra and dec are those of the centre as Img has it. find_axis gives the number of the axis of a given name.", "quantifier": "all arrays of any shape, all axes in any order and all keywords", "why_tests_cant": "The header is a dictionary keyed by numbered cards that later axes overwrite; a test writes one cube with the default axes.", "anchors": ["aipy/img.py:328-439"]}
{"id": "C118", "title": "Map.to_fits and Map.from_fits are inverse to each other", "statement": "Map.to_fits(filename) writes a file from which Map.from_fits, and Map(fromfits=filename), give back data, weights and index maps with their resolution, ordering and values, in place of what the Map had. A file of one column is read with weights of one. Map(fromfits=..., nindices=k) has k index maps, those of the file first. Without clobber an existing file raises, as does a column that is not a HEALPix map. The card ORDERING is RING or NESTED. With interp=True all maps are interpolated. HealpixMap.to_fits and HealpixMap.from_fits do the same for one map; the columns of a Map's file, read one by one, are its data, weights and index maps.", "quantifier": "all resolutions, orderings, values and numbers of index maps, all earlier contents of the Map", "why_tests_cant": "The reader appends to what is there and takes one ordering for all columns; a test reads into a new Map that has one ordering.", "anchors": ["aipy/map.py:70-87", "aipy/map.py:123-167", "aipy/healpix.py:293-326"]}
{"id": "C119", "title": "img.convolve2d, gaussian_beam and beam_gain do what they say", "statement": "convolve2d(a, b) is the circular convolution of two matrices of one shape. gaussian_beam(sigma, shape, amp, center) is a Gaussian on a torus of that shape whose peak is at center, down by 1/e at distance sigma from it, with area amp; an integer shape is the number of pixels of a square. beam_gain is the largest absolute value.", "quantifier": "all shapes, matrices, widths, amplitudes and centres", "why_tests_cant": "Convolution is computed by three transforms and must agree with a double sum with wrapped indices at every pixel of every shape; tests use one Gaussian, centred at the origin, where the direction of the shift does not show.", "anchors": ["aipy/img.py:61-79"]}
{"id": "C120", "title": "interp.interpolate oversamples without moving or bending polynomials", "statement": "polyextend(y, nsamples, degree) continues the samples of any polynomial of that degree on both sides. interpolate(ys, factor) gives factor values for every sample, keeps constants and straight lines, value k*factor being at sample k.", "quantifier": "all polynomials, numbers of samples and factors, for any polyfit that finds a polynomial through all points when there is one", "why_tests_cant": "The number of taps comes from a division of doubles, which is right for some factors and off by one for others; the asymmetry of the window is smaller than a tolerance.", "anchors": ["aipy/interp.py:25-57"]}
{"id": "C121", "title": "map.pack_sphere gives N points of the sphere", "statement": "pack_sphere(N) returns N points of the unit sphere in order from south to north, equally spaced in z, each by the golden angle further in longitude.", "quantifier": "all N from 1 to 2**48", "why_tests_cant": "The sizes of the two arrays of coordinates come from divisions of doubles; whether they agree differs from one N to the next, so testing some N says nothing about others.", "anchors": ["aipy/map.py:20-28"]}
{"id": "C122", "title": "srclist.py lists the sources that were asked for, in a form that can be used", "statement": "srclist.py prints the names, sorted and once each, of exactly those sources of the catalog that meet the ranges of RA and dec, the separation from the centres and the exclusions. RA ranges go eastward from the first to the second value. The list can be split at the divider; with --fitprms it is a string that parse_prms reads back to those parameters of those sources.", "quantifier": "all catalogs, options, separators, source names and parameter names", "why_tests_cant": "The selections combine, wrap at 24h and depend on which options are given together; the string of parameters has to be read by another program. A test of one option with one source sees neither.", "anchors": ["scripts/srclist.py:58-133", "aipy/scripting.py:171-221"]}
{"id": "C123", "title": "compress_uv.py loses no data", "statement": "Whatever fails, every file that was there before compress_uv.py is afterwards there or in a complete archive of its directory; without -d nothing is changed or removed; compressing with -d and expanding with -x gives all files back.", "quantifier": "all disks, names given, numbers of names, patterns of failures of tar", "why_tests_cant": "Loss of data depends on the state of the disk, on names with blanks or slashes and on where tar fails; tests run the script on one good directory.", "anchors": ["scripts/compress_uv.py:24-39"]}
{"id": "C124", "title": "the value fitmdl.py minimises is the misfit relative to the start, however the data are divided", "statement": "Every value given to the minimiser is the root of chi-squared over unflagged samples divided by chi-squared at the starting parameters; a master with daemons gives the same values as one process with all files.", "quantifier": "all data, flags, models, sequences of evaluations and divisions of files among daemons", "why_tests_cant": "The state kept between evaluations (cache, first value) and the combination of sums from several processes only show over a history of calls; special values (an exact start, no data) end the fit silently.", "anchors": ["scripts/fitmdl.py:91-248"]}
{"id": "C125", "title": "fitmdl.py --snap fits every integration once, by itself", "statement": "With --snap, fit number c is labelled with the time of integration decimate*c+decphs of the file and uses exactly the records of that integration; all integrations selected by decimation are fitted, each once.", "quantifier": "all files, numbers of integrations and of records in them, decimations and phases", "why_tests_cant": "The times are found with one decimation and the data read with another; that the two pick the same integration is arithmetic of the counter in uvio.c for every number of integrations.", "anchors": ["scripts/fitmdl.py:265-297", "aipy/_miriad/uvio.c"]}
{"id": "C126", "title": "fitmdl.py --shprms gives all objects of a group the same parameters", "statement": "A shared parameter is one variable of the fit; in every evaluation all objects of its group are given its value, all other parameters are as varied, and those that are not varied are left alone. A starting value given is where the fit starts.", "quantifier": "all groups of objects and parameters, parameters known to array and catalog, values tried by the minimiser", "why_tests_cant": "Whether objects agree depends on how groups overlap, on the order of their names and on which parameters are also fitted separately.", "anchors": ["scripts/fitmdl.py:59-110"]}
{"id": "C127", "title": "cl_img.py reweights image and beam alike", "statement": "Whatever the weighting asked for, image and beam are multiplied by the same function of the uv plane: any sky that explains the file's image with the file's beam explains the image handed to the deconvolver with the kernel handed to it. Natural weighting without limits leaves both unchanged; radial weights are the length of the baseline, --minuv and --maxuv Gaussians of it. --pos_def makes the clean components positive.", "quantifier": "all images, beams, skies, sizes and weightings", "why_tests_cant": "A deconvolution always returns something; whether it solved the problem that was posed is an identity of transforms for every image, and the uv coordinate of every pixel depends on whether the number of pixels is even.", "anchors": ["scripts/cl_img.py:60-119", "aipy/img.py:112-117"]}
{"id": "C128", "title": "cl_img.py restores sources where they are", "statement": "The clean components are spread by a Gaussian of the shape of the middle of the dirty beam, with sum 1: each source stays at its pixel, no flux is made or lost, and the restored source is as long along each axis as the beam.", "quantifier": "all clean images, beams and numbers of pixels from 30", "why_tests_cant": "A restored image looks right when everything is moved by a pixel or when the beam's axes are exchanged; the place of the peak after two recentrings and a transform depends on the parity of the number of pixels.", "anchors": ["scripts/cl_img.py:126-144", "aipy/twodgauss.py:9-55"]}
{"id": "C129", "title": "find_delay.py finds the delays of antennas", "statement": "All records of long baselines between antennas that are not flagged, in parallel polarisations and no others, are added up; the delay of a baseline is where the transform of the sum over channels is largest, flagged channels not counted, and the delays of the antennas printed are those whose differences fit best, up to a common one.", "quantifier": "all sequences of records, numbers of channels, channel widths, delays, sets of baselines", "why_tests_cant": "Delays printed for a test file look plausible whether or not bins are labelled right; that the linear equations cannot be solved is a property of every set of baselines, and that flags come from another record needs records of different baselines.", "anchors": ["scripts/find_delay.py:38-126"]}
{"id": "C130", "title": "xrfi_simple.py flags what its statistics single out", "statement": "Run on a file of which all records are read for the statistics, `xrfi_simple.py` writes the records in their order, with data zero exactly where flagged and unchanged elsewhere. Flagged are the samples flagged before, those in channels given, and with `--df c` (`--dt c`) the first and last of each spectrum (time series of a channel) and those whose difference from the mean of their neighbours exceeds `c` times the root of its median square; without both options those of which the magnitude exceeds the median of the baseline's by `nsig` times the root of the median squared deviation. At most half of the samples are singled out. With `--combine` a channel is flagged at a time if at least `thresh` of that time's records would be flagged there, and saving and reading these flags changes nothing. Flags that were in the file stay, and records not selected are left alone.", "quantifier": "all files, options, channels, times, baselines, polarisations and data", "why_tests_cant": "Each test has a fixed file. That nothing else is flagged, the bound of one half for all data, and which flags survive `--combine` need all of them.", "anchors": ["scripts/xrfi_simple.py:41-136"]}
{"id": "C131", "title": "Selecting by amplitude flags channels and nothing else", "statement": "After `uv.select('amplitude', lo, hi, include)`, among any other selections, `uv.all()` yields the same records with the same data as without it. A channel of a record that the interval applies to is unflagged if and only if it was written unflagged and its amplitude lies between `lo` and `hi` (outside, with `include=0`), up to the rounding of single precision numbers. The interval applies to the records selected by the `and`/`or` clause in which the call was made, thus without `or` to all records.", "quantifier": "all data sets (C48), selections, intervals, amplitudes and roundings of bounded relative error", "why_tests_cant": "An amplitude at one of the ends depends on rounding, and which clause's interval is in use depends on the history of clauses that selected the record; tests try a few.", "anchors": ["aipy/_miriad/mir/uvio.c:2461-2471", "aipy/_miriad/mir/uvio.c:2850-2885", "aipy/_miriad/mir/uvio.c:3518-3526", "aipy/_miriad/mir/uvio.c:4335-4404"]}
{"id": "C132", "title": "Selecting spectral windows", "statement": "After `uv.select('window', n, 0, include)` calls, a record that is otherwise selected is returned with the channels of the selected windows, in order. A window is selected as the last call naming it says, and otherwise as the opposite of the first call. Channels of other windows are flagged, but returned in their places. Any set of the file's windows can be selected or discarded.", "quantifier": "all numbers of windows, channels per window, and sequences of window selections", "why_tests_cant": "Each file has one division into windows. Which selections are refused, and where channels end up, needs all of them.", "anchors": ["aipy/_miriad/mir/uvio.c:2473-2489", "aipy/_miriad/mir/uvio.c:3909-3924", "aipy/_miriad/mir/uvio.c:4038-4086", "aipy/_miriad/miriad_wrap.cpp:96-140", "aipy/miriad.py:217-225"]}
{"id": "C133", "title": "What each kind of selection names", "statement": "After uv.select(name, n1, n2, include) the records returned by read() are those that the name and the numbers stand for (the others with include=0): 'time' the Julian date or, for numbers below one, the time of day since midnight; 'uvnrange' and 'uvrange' the length of the projected baseline in nanoseconds or in wavelengths at the frequency of the first channel; 'increment' every nth record beginning with the first; 'pointing' the largest pointing error of the two antennas; 'ra', 'dec' including the offsets 'dra', 'ddec'; 'lst' an arc of the circle that may pass through zero; 'ha' the hour angle; 'shadow' the baselines one of whose antennas is behind another antenna as seen from the phase centre, for dishes of n1 metres (0: variable antdiam); and so on; several calls combine as in C07, and empty intervals are refused.", "quantifier": "for all records, all sequences of select calls with any real arguments, all antenna positions and phase centres", "why_tests_cant": "Test files have a few records at one time with one polarisation; no test selects by anything but antennas and polarisations, and shadowing or wrapping of angles depends on geometry that test files do not have.", "anchors": ["aipy/_miriad/mir/uvio.c:2259-2526 (uvselect_c)", "aipy/_miriad/mir/uvio.c:3147-3538 (uvread_select)", "aipy/_miriad/mir/uvio.c:3578-3663 (uvread_shadowed, uvread_updated_uvw)", "aipy/miriad.py:197-216 (UV.select)"]}
{"id": "C134", "title": "What plot_uv.py plots, and where", "statement": "plot_uv.py makes one panel for each baseline and polarisation, in order, in a grid that holds them all. The rows of a panel are the records of the baseline in the integrations that -t names (all, ranges, or a list, in the units of the time axis), in the order of the files, each at the coordinate of its time; with -a i_j the data are those of the baseline in the order asked for. --dt and --df remove what a straight line through the neighbours accounts for. With -d a signal of delay tau appears at tau on the delay axis, and channels that are not contiguous are refused.", "quantifier": "for all files (sequences of integrations with any records), all selections, all numbers of channels, windows, delays", "why_tests_cant": "The test battery only checks that the script runs; misplaced rows and labels appear for gaps, decimated files, missing records and odd numbers of channels, which show in no test.", "anchors": ["scripts/plot_uv.py:58-83 (gen_times)", "scripts/plot_uv.py:113-118 (delays)", "scripts/plot_uv.py:127-206 (gathering, order)", "scripts/plot_uv.py:208-290 (differences, axes)"]}
{"id": "C135", "title": "plot_map.py shows, labels and reads out the right part of the sky", "statement": "On the picture that plot_map.py draws (cylindrical projection, without matplotlib-basemap) every pixel shows the value of the map at the direction its place stands for: the longitude of the middle is the one asked for, longitudes grow to the left, latitudes upwards, in the system and epoch asked for, whatever the system and epoch of the map. No pixel is left out. The label of each source is put at the point that stands for its direction. A right click prints the coordinates of the point clicked and the value shown there.", "quantifier": "for all maps, systems, epochs, centres, resolutions, sources, points of the picture", "why_tests_cant": "The test battery does not run the script; mirrored labels and values from the wrong place look plausible on a picture, and depend on the combination of systems, which examples cover one at a time.", "anchors": ["scripts/plot_map.py:15-57 (Basemap)", "scripts/plot_map.py:106-148 (pixels)", "scripts/plot_map.py:151-209 (labels)", "scripts/plot_map.py:228-256 (click)"]}
{"id": "C136", "title": "rfi_diagnostic.py plots the fraction lost and the largest amplitude, channel by channel", "statement": "With -d the value plotted for a baseline and a channel is the number of samples of all the files that are flagged, zero, or found bad by the strategy asked for, divided by the number of samples; all records of the baseline count, and each is judged by its own data. With -m it is the largest amplitude that occurs (its logarithm with -l). The horizontal axis gives the frequency of each channel (or the redshift of the 21cm line, or the channel number). Every baseline has a panel; --best shows the baselines with the largest, the middle and the smallest average.", "quantifier": "for all sequences of files and records, all strategies, all numbers of channels and baselines", "why_tests_cant": "No test runs the script; wrong fractions look plausible, and depend on the order of the files and records and on which baseline was read last.", "anchors": ["scripts/rfi_diagnostic.py:40-69 (reading, maximum)", "scripts/rfi_diagnostic.py:71-137 (strategies, counting)", "scripts/rfi_diagnostic.py:141-165 (axis, panels)", "scripts/rfi_diagnostic.py:173-213 (best, plots)"]}
{"id": "C137", "title": "plot_img.py shows the plane asked for and reads out the pixel clicked", "statement": "The picture that plot_img.py draws of a FITS cube has at each place the mean of the cube over the channels asked for and at the polarisation asked for, whatever the order of the axes; in the modes lin and real the flux printed for a pixel is its amplitude or its value. The colour scale covers all values unless --max or --drng say otherwise. Every file has a panel; in batch mode each file gets one picture, and pictures already there are kept. A right click prints the right ascension and declination of the point, the pixel it lies on, and the flux of that pixel; the meridians drawn are multiples of 30 degrees.", "quantifier": "for all cubes, orders of axes, selections of channels and polarisations, numbers of files, pixel sizes and points", "why_tests_cant": "No test runs the script. A wrong plane, a mirrored position or a wrong column looks plausible on a picture, and whether it appears depends on the order of axes, shape and sign of the increments of the file.", "anchors": ["scripts/plot_img.py:30-44 (files, panels)", "scripts/plot_img.py:51-90 (axes, averages, modes, limits)", "scripts/plot_img.py:92-113 (grid)", "scripts/plot_img.py:117-142 (click)"]}
{"id": "C138", "title": "Views of arrays are written and gridded as numpy shows them", "statement": "Setting a variable of a UV to an array, writing visibilities with UV.write or raw_write, and gridding with grid2D_c use the elements that numpy shows for their arguments: a column of a table, every other element, a reversed or a transposed array give the same result as a contiguous copy of it. Arrays of a type that the function cannot read are refused.", "quantifier": "for all memories, offsets, strides, lengths and types of the arguments", "why_tests_cant": "The tests pass freshly made arrays only, which are contiguous; for a view the numbers written are plausible numbers from the same memory and nothing is raised.", "anchors": ["aipy/_miriad/miriad_wrap.cpp:145-183 (raw_write)", "aipy/_miriad/miriad_wrap.cpp:311-355 (_wrvr)", "aipy/miriad.py:228-242 (UV.write)", "aipy/_dsp/dsp.c:42-80 (grid2D_c)"]}
{"id": "C139", "title": "Data sets open at the same time do not disturb one another, even when a call on one of them fails", "statement": "aipy.miriad.UV objects that are open together are independent: up to 25 at a time can be opened, used and closed in any order, each reads and writes the data set it was opened for, and when a call raises RuntimeError (a data set that is missing, a name already taken, a variable that has no value) the other objects can still be used, closed, and find on disk what was written; closing an object, or failing to open one, gives its place back.", "quantifier": "all sequences of opens (old, new, append), reads, writes, failing calls and deletions over any number of objects; all names; all contents of the disk; any number of earlier errors", "why_tests_cant": "A test opens one or two files, provokes one error and ends; what an error does to the other files depends on how many errors the process has had before (odd or even), on which files are being written, on how many places were used up, and on the hash of the names, so one run shows one of these cases and a process that has crashed or lost a file shows it somewhere else.", "anchors": ["aipy/_miriad/miriad_wrap.cpp:27-74 (UVObject_dealloc, error_handler, UVObject_init)", "aipy/_miriad/mir/hio.c:156-247 (hopen_c, hinit_c)", "aipy/_miriad/mir/hio.c:322-478 (habort_c, hrm_c, hclose_c)", "aipy/_miriad/mir/hio.c:1486-1517 (hcreate_tree_c)", "aipy/_miriad/mir/bug.c:84-175 (bug_c, bugv_c)", "aipy/_miriad/mir/uvio.c:706-874 (uvopen_c, uvclose_c)", "aipy/_miriad/mir/dio.c:76-94 (dtrans_c)"]}
{"id": "C140", "title": "pull_ants.py writes the visibilities between the antennas asked for", "statement": "pull_ants.py -a LIST FILES writes for each file a data set FILE+'A' that holds exactly the records whose two antennas are both in the list, in their order; files whose output exists are skipped; nothing else on the disk is changed.", "quantifier": "all lists of antennas, all lists of files, all contents of the disk, any number of runs one after another", "why_tests_cant": "The script has no tests, and a test of one run on one file would have to look at the records of the output and at what a second run does; that no record can ever be written, for any list and any files, is a statement about all runs.", "anchors": ["scripts/pull_ants.py:18-44", "aipy/miriad.py:81-85 (UV.__init__ reads a record)"]}
{"id": "C141", "title": "stokes_rotate.py turns linear polarisations into Stokes parameters, and pol.UV reads back the polarisation it writes", "statement": "For each name of a polarisation pol.UV.write_pol(name) followed by read_pol() gives the name, an unknown name is refused, and stokes_rotate.py FILES writes for each file a data set FILE+'S' with the Stokes parameters of the visibilities.", "quantifier": "all names, all previous values of the variable, all lists of files and all contents of the disk", "why_tests_cant": "A test writes the names its author knows; that every other string is swallowed and leaves the previous polarisation in force, and that no input lets the script reach its output, are statements about all strings and all files.", "anchors": ["aipy/pol.py:25-34 (UV.read_pol, UV.write_pol)", "scripts/stokes_rotate.py:19-68", "aipy/miriad.py:16-32 (str2pol, pol2str)"]}
{"id": "C142", "title": "Attributes of the Sun, the Moon and the planets follow ephem until they are set", "statement": "After any sequence of setting attributes and computing a RadioSpecial for observers, an attribute nobody has set reads as the ephem body's value for the observer last computed, and an attribute that was set reads as last set. After a compute with ra, dec, az and alt never set, get_crds in both systems and the rotation `map` belong to the same observer and place. Setting ra (which the docstring of __setattr__ says may reach the ephem body) hides the body's for good: the next compute uses it for eq coordinates and the rotation but not for az and alt. An instance whose __init__ has not run, as copy.copy and pickle make it, cannot be asked for any attribute: the lookup recurses without end.", "quantifier": "for all observers, all ephem bodies (arbitrary fields per observer), all sequences of set and compute, all names outside those aipy sets itself, every recursion limit", "why_tests_cant": "Tests read a few attributes of the Sun after one compute; no test covers every interleaving of setting and computing, or an instance before __init__.", "anchors": ["aipy/phs.py:42-67", "aipy/phs.py:96-117"]}
{"id": "C143", "title": "A fixed source written as text can be read back, once it has been computed", "statement": "str() of an amp.RadioFixedBody that has been computed is eight columns between tabs: name, right ascension, declination with its sign, flux, index, frequency of the flux, flux at the first channel, first channel; splitting at the tabs gives them back, and two computed sources with equal text have equal name, place, flux, index and frequencies (if numbers are written distinguishably). A source that has not been computed has no text: AttributeError, although the code catches the missing flux just before.", "quantifier": "for all names without tabs, all values, all ways of writing numbers without tabs, all frequency axes with at least one channel, any number of computes", "why_tests_cant": "A test compares one text; it cannot show that no two different sources share a line or that every uncomputed source fails.", "anchors": ["aipy/phs.py:47-48", "aipy/phs.py:83-85", "aipy/amp.py:30-34", "aipy/amp.py:59-72"]}
{"id": "C144", "title": "Rows, times and frequencies returned by read_files belong together", "statement": "If every integration read has exactly one record of a baseline and polarisation, read_files returns as many rows of data and of flags for it as times, and row k is the record taken at times[k]. If one integration lacks the baseline nothing is raised or filled in: later rows move up, the row at its place is that of the next integration, and there is one row less than times. freqs, sdf and inttime are those of the last file, whatever the others were tuned to. The conversion to arrays keeps every row and goes through exactly if the rows of each key have the same number of channels.", "quantifier": "for all lists of files, selections, decimations, integrations, baselines and frequency axes", "why_tests_cant": "Test files are complete and tuned alike; a test cannot range over every pattern of missing baselines, file boundaries and tunings.", "anchors": ["aipy/miriad.py:306-354", "aipy/cal.py:13-14"]}
{"id": "C145", "title": "Command lines of the scripts are read as written, and scripts find the options they use", "statement": "For each script the declared options (its own and those of add_standard_options) can be added together: no two share a name, none shares one with -h/--help. A command line made of words, flags, `-o VALUE`, `-oVALUE`, `--option VALUE` and `--option=VALUE` is accepted, every destination holds the value last given (its default otherwise) and the words are the arguments, in order; `--` ends the options; several letters may share a word (`-xy` is `-x -y` for a flag x); an unambiguous beginning of a long name means the name, the beginning of two names or of none is refused; a missing value, an unreadable number and an unknown letter are refused. Everything a script reads from the result was declared.", "quantifier": "for all command lines, all 1024 selections of standard options, all scripts of the package", "why_tests_cant": "A test runs the command lines its author types; that every mixture in every order means what it says, that no selection of standard options clashes with those of a script, and that no script reads an option nobody declares concern all command lines and all scripts.", "anchors": ["aipy/scripting.py:11-44 (add_standard_options)", "scripts/*.py (add_option calls)", "scripts/pull_ants.py:15,39", "scripts/inspect_phs_close.py:21,89-102"]}
{"id": "C146", "title": "Gridding keeps the sum of the data", "statement": "dsp.grid1D_c(buf, ind, dat[, footprint]) adds to every cell, for every sample, the Gaussian of width half a cell at the integers of the footprint that fall on it (the buffer is a ring): nothing outside the buffer is touched, the order of the samples does not matter, positions moved by whole cells turn the buffer by as many. With the default footprint or a larger one the sum over the buffer grows by the sum of the data to within 1/60 of the sum of their magnitudes, wherever they fall between the cells; grid2D_c on square matrices, and so the uv matrix in Img.put, to within 1/30. Exactly it does not (the C code says so: XXX should really make sure wgts sum to 1): a sample on a grid point counts more than one per cent too much. A negative footprint stands for more than two thousand million cells.", "quantifier": "for all buffers, numbers and positions of samples, values and footprints", "why_tests_cant": "The total weight is a function of the continuous position of a sample; a test sees it at the positions it tries, while the bound for all of them takes Poisson's summation formula.", "anchors": ["aipy/_dsp/grid/grid.c:22-67 (grid1D_c, grid2D_c)", "aipy/_dsp/dsp.c:5-41 (wrap_grid1D_c)", "aipy/img.py:119-158 (Img.put)"]}
{"id": "C147", "title": "Text assigned to a variable of a data set comes back", "statement": "In python 3 uv[name] = t followed by uv[name] gives t back for every text t, and copying it from data set to data set (uv2[name] = uv1[name], as pipe and init_from_uv do) any number of times does not change it.", "quantifier": "for all texts (all sequences of unicode characters) and all numbers of copies", "why_tests_cant": "A test writes plain words; whether text comes back depends on the number of bytes its characters take in UTF-8, and the damage for other letters is different for even and odd numbers of them.", "anchors": ["aipy/_common/aipy_compat.h:6-32 (PyString_Size, PyString_AsString)", "aipy/_miriad/miriad_wrap.cpp:333-337 (UVObject_wrvr)", "aipy/_miriad/miriad_wrap.cpp:268-270 (UVObject_rdvr)"]}
{"id": "C148", "title": "The image of visibilities at any places in the uv plane is their direct Fourier sum, lowered towards the edges", "statement": "Make an Img of dim x dim pixels, put any visibilities into it - at (u,v) that need not fall on points of the uv matrix, in any number, with any weights - and take image(center). dim^2 times the pixel q pixels north and p pixels west of the phase centre is the real part of the direct Fourier sum of the visibilities towards the (l,m) of that pixel, times exp(-pi^2 (q/dim)^2/2) exp(-pi^2 (p/dim)^2/2), with an error of at most 4 (exp(-pi^2 (1-|q|/dim)^2/2) + exp(-pi^2 (1-|p|/dim)^2/2)) + 0.0001 times the sum of the absolute values of the visibilities; the same for bm_image and the weights. So the pixel of a source of flux S holds S times the sum of the weights times that factor, within that error.  The error is small in the middle and is no mere bound at the edge: samples half-way between two columns of the uv matrix leave exactly nothing of a source on the edge of the image.", "quantifier": "all image sizes, resolutions, lists of samples, weights, centres and pixels", "why_tests_cant": "the samples of a test stand in a few places; how much of a source is left, and how much of the next copy of the image comes in, depends on where each sample stands between the points of the grid", "anchors": ["aipy/img.py:Img.put", "aipy/img.py:Img.image", "aipy/img.py:Img.bm_image", "aipy/_dsp/grid/grid.c:grid2D_c"]}
{"id": "C149", "title": "UV.write stores what its data and mask say, or raises and stores nothing", "statement": "A call of UV.write whose data are a masked array with a mask, or an array with flags beside it (one axis, equal lengths), and whose preamble is (three doubles, a time, two antennas) appends exactly one record: the numbers as given, also under the mask, and the mask (the flags, if they are given, and then the mask of the data does not count). Any other call either has data None and stores nothing or raises and leaves the file as it is. A file written by such calls gives back one record per call that did not raise, with the same numbers and the same mask, and what UV.read returned (raw or not) is written back as the same record. (Violated for masked arrays without a mask: they raise.)", "quantifier": "all arguments of the modelled forms (arrays of any shape, masks, None, other objects), all sequences of calls, all conversions to complex64", "why_tests_cant": "the forms combine (mask or none, flags or none, axes, lengths, scalars), and the inversion of the flags happens once on the way in and once on the way out, so a test of one form says nothing about the others or about files in which some calls failed", "anchors": ["aipy/miriad.py:217-246 (UV.read, UV.write)", "aipy/_miriad/miriad_wrap.cpp:145-185 (UVObject_write)"]}
{"id": "C150", "title": "uvlist.py lists the keywords of a data set and prints the values of those asked for", "statement": "uvlist.py prints, for each data set named on the command line, the list of its keywords: the header items that were assigned, vartable, and the variables that were given a value, each once and nothing else. With -k it prints every keyword of the comma-delimited list with its value, in the order of the list and for every data set; everything that is listed can be asked for.", "quantifier": "all data sets written by the library, all lists of keywords, any number of data sets, all contents of the disk", "why_tests_cant": "A test prints the keywords of one file. Which keywords are listed and which have a value when the file has been opened depends on the history of assignments of the program that wrote it.", "anchors": ["scripts/uvlist.py:19-31", "aipy/miriad.py:73-107", "aipy/miriad.py:182-189"]}
{"id": "C151", "title": "deconv.clean accounts for the image from its arguments, and refuses arguments that do not fit", "statement": "deconv.clean(im, ker, mdl, area) with arrays of one or two axes that agree in shape, and in a floating point type, returns a model and a residual of that shape and type: the residual plus the cyclic convolution of the kernel with the model is the image, whether or not a starting model was given, and pixels where the area is zero keep the value of the starting model (zero if none was given). With stop_if_div (the default) such a call always returns. Arguments that do not agree in shape or type, and arrays of other numbers of axes, are refused with an exception; an area pixel other than zero is inside the area.", "quantifier": "all shapes of one and two axes, all images, kernels, models and areas, all types of numbers, all settings of gain, maxiter, tol, stop_if_div and pos_def", "why_tests_cant": "Tests call it with one shape and one kernel. What happens for other combinations of shapes, types, models and areas is decided by a numpy front end, broadcasting, and checks in C++ that cover some ranks only.", "anchors": ["aipy/deconv.py:23-71", "aipy/_deconv/deconv.cpp:489-577", "aipy/_deconv/deconv.cpp:55-157"]}
{"id": "C152", "title": "deconv.lsq approaches the model: each Fourier component of the residual shrinks by a known factor in every pass", "statement": "With area left at None and a kernel that is not zero, as long as no pixel meets lower or upper, each pass of deconv.lsq raises every pixel of the model by gain/(2q) times what is left of the image in that pixel, q being the root of the sum of the squares of the kernel; info['res'] is what the returned model leaves; info['iter'] is the number of passes, one more if it ended by 'tol'. The Fourier component (k,l) of info['res'] is therefore that of the starting residual times (1 - gain*K(k,l)/(2q)) to the number of passes, and when all these factors have magnitude at most r no pixel of the residual exceeds r**maxiter times the mean magnitude of the starting components. For a kernel of one positive pixel at the origin the residual is (1-gain/2)**maxiter times the starting one, and lsq never ends by 'tol' when 0 < gain <= 1 and tol <= gain (as by default): it makes maxiter passes. With an area the raise of each pixel is multiplied by the integer part of the area there, and pixels where that is zero are returned as they were given.", "quantifier": "all image sizes with two axes, all images, kernels, starting models, gains, tolerances, bounds and numbers of passes", "why_tests_cant": "The factor holds for every component, image size and number of passes; a test compares one run with one expected image, and a run with the default 200 passes on a small kernel looks converged whatever the termination rule is.", "anchors": ["aipy/deconv.py:79-132"]}
{"id": "C153", "title": "uv[name] = value goes to the declared variable, else to the header item, else raises", "statement": "For a file opened with status 'new' or 'append', after any calls of add_var, init_from_uv (that did not raise) and any assignments: uv[name] = v writes one value of the variable of that name if the last call that decides about the name declared it (add_var of that name, or init_from_uv with a source that has the variable and does not exclude it; 'corr' from the opening on); otherwise it writes the header item of that name; otherwise it raises KeyError and writes nothing. All values of a variable in a file have one type: an assignment under another type raises and writes nothing. init_from_uv writes exactly the items and variables of the source that are not excluded, with the values of override where there are any; entries of override for other names are ignored. (A user would also expect add_var to last, and the variables of a file to be assignable when it is opened to append.)", "quantifier": "all sequences of calls, all names, types and values, all sources, overrides and exclusions", "why_tests_cant": "The outcome depends on the whole history of declarations; tests assign a few variables right after add_var or init_from_uv in a new file.", "anchors": ["aipy/miriad.py:73-88", "aipy/miriad.py:190-196", "aipy/miriad.py:247-268", "aipy/miriad.py:287-289", "aipy/_miriad/miriad_wrap.cpp:320-372", "aipy/_miriad/mir/uvio.c:1714-1722"]}
{"id": "C154", "title": "Fitting a Helmboldt source keeps its spectrum until the numbers change", "statement": "For a source of the Helmboldt catalog, get_params, flatten_prms, reconstruct_prms and set_params with unchanged numbers leave the flux at every frequency, the position, the shape and the refraction as they were, whichever parameters are named. With jys and index named, the fitter sees the indices followed by the flux, and after the fit the source has the spectrum 10^(log jys + B X + C exp(D X)) of the first three fitted indices, missing ones being zero. Sources made by the catalog with a fitted spectrum always have at least one index. get_params without arguments works as for other sources.", "quantifier": "All sources, all lists of names, all index lists with at least one number, all fitted vectors of the right length, all frequencies", "why_tests_cant": "A list of one index comes back from the flat vector as a number, so equality of dictionaries fails while the flux is right; which index lists and parameter selections are safe is a statement about all of them.", "anchors": ["aipy/_src/helm.py:13-42", "aipy/_src/helm.py:90-106", "aipy/fit.py:18-50", "aipy/fit.py:114-133"]}
{"id": "C155", "title": "A header item under the name of a variable replaces the variable", "statement": "When a file is opened for reading, an item of one number with the name of an integer, real or double variable replaces it: every element of the variable, as many as the file last announced and one before that, is the number of the item in the type of the variable, whatever the records say, also after a rewind; it counts as updated in the first record (again after a rewind) and in those that announce its length. A string item replaces a string variable, up to its first zero byte, and the variable counts as updated in the first record only. All other items leave all variables as they are, and which records can be read does not depend on the items. Every such file can be opened, and a variable written with uv[name] = value is read as it was written.", "quantifier": "All tables of variables, all sets of items, all sequences of records, all conversions between the types of numbers", "why_tests_cant": "The items and variables come from different writers and any combination of types, lengths and names can occur; tests use files without such items.", "anchors": ["aipy/_miriad/mir/uvio.c:1136-1190", "aipy/_miriad/mir/uvio.c:1861-1950", "aipy/_miriad/mir/headio.c:342-536", "aipy/_miriad/mir/headio.c:696-845"]}
