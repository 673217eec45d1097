# Design: a Lean model of aipy

aipy (HERA-Team) at the pinned commit is a Python package for radio interferometry with C/C++
extensions (MIRIAD file I/O, CLEAN deconvolution, gridding).  Nothing of it is built or run here;
every definition is transcribed by hand from the source text in `/repo` and cites file and lines.

## Layout

    lean/Verif/Util         dictionaries (association lists), text (splitting, printing integers), doubles, medians
    lean/Verif/Codes        baseline and polarisation codes                       C01-C04
    lean/Verif/Scripting    channel, antenna, parameter and source strings        C05, C06, C08, C96, C122, C145
    lean/Verif/Miriad       uvselect / uv_selector                                C07
    lean/Verif/Fit          fit parameters                                        C09-C12, C124-C126
    lean/Verif/Phs          baselines, phases, derived state                      C13-C16, C60, C68
    lean/Verif/Amp          simulated visibilities, caches, pointing, beams       C17, C18, C69, C72, C73, C84-C86, C89, C98, C114, C116
    lean/Verif/Coord        rotations and angles                                  C19-C21, C88, C92
    lean/Verif/Img          gridding, images, w-projection, add2array, recenter,
                            wrapping, mk_img.py                                              C22-C29, C58, C59, C75-C78, C97, C103, C117, C119, C127,
                                                                                              C128, C146, C148
    lean/Verif/Sky          HEALPix maps, alm, facets, modmap.py, mk_map.py       C30-C35, C61-C63, C93, C104, C118, C121
    lean/Verif/Deconv       CLEAN, annealing, least squares, maximum entropy      C36-C40, C64-C66, C94, C95, C151, C152
    lean/Verif/Dsp          windows, filter_src.py, remove_spikes                 C41, C90, C91, C102,
                                                                                  C129
    lean/Verif/Mir          MIRIAD files: packing, flags, items, data sets, UV variables, visibilities,
                            headers, copying, appending, selecting                C42-C54, C70, C71, C79-C82, C87, C99-C101,
                                                                                  C131-C133, C138, C139, C144, C147, C149, C150,
                                                                                  C153, C155
    lean/Verif/Misc         catalogs and their files, Julian dates, interpolation C55-C57, C67, C74, C105-C108,
                            xtalk3.py, combine_freqs.py, apply_bp.py, cal.py      C109-C113, C115, C120, C123, C130, C134-C137, C140-C143, C154

Usually `Model.lean` holds the code function by function (computable wherever possible) and `Props.lean`
the specification, the property theorems and the examples that show their hypotheses can be met; in
smaller files both are in one file under separate headings.  The specification used in a theorem is
written beside it (or is a plain Mathlib/core notion such as `List.Perm`, `Function.Injective`, a finite
sum), not with the helpers of the model.

Naming: theorems `cNN_...` are the ones listed in MANIFEST.json; the suffix `_partial` means that the
theorem covers less than the English statement (what is missing is in its doc comment and in
MANIFEST.json); the suffixes `_violated` and `_fails` and the theorems called "disagreement" in their comment are
machine checked counterexamples: the code does *not* satisfy the unrestricted statement.

## Modelling conventions

* Python `int` -> `Int`/`Nat`; Python `//`, `%` on ints -> `Int.fdiv`/`Int.fmod` (or Nat when
  both sides are non-negative); C `/`, `%` -> `Int.tdiv`/`Int.tmod` or Nat.
* C `int` overflow is modelled where the property is about it (baseline codes, bit packing, 16-bit
  scaling, item offsets beyond 2^31, header integers); elsewhere integers are unbounded.
* floats: properties about algebra (phases, rotations, CLEAN, gridding, maps) are stated over exact
  real/complex numbers or over an arbitrary commutative ring/ordered field; rounding is NOT modelled.
  Where exactness matters it is: baseline codes (rounding to 24 bits), 16-bit scaling (a rounding with
  relative error after each operation, and a concrete 24-bit rounding), Julian dates (53 bits).
  Floats that are only stored and copied are bit patterns; conversions between `float` and `double` are
  then parameters (`FloatOps`, `Conv`) with the one law that is needed stated as a hypothesis.
* exceptions / `bug_c('f',..)` / non-zero iostat -> `Option`/`Except`/error constructors.
* mutable state -> explicit state structures with `step` functions; histories are lists of operations.
* shared Python objects (phase polynomials, beams) -> addresses into an explicit store.
* memory of unspecified content -> a universally quantified parameter ("garbage", `g`, `junk`).
* dictionaries -> association lists with the Python iteration order where it matters.
* loops without an evident bound -> a fuel argument, with a theorem that the fuel given is enough, or a
  step relation.

## Trusted base

* Lean 4.33.0 kernel, and Mathlib as installed.  Theorems depend on `propext`, `Classical.choice`,
  `Quot.sound` only (table at the end); no other axiom.  No `native_decide`, `bv_decide`.
* The transcription from Python/C to Lean (by hand; lines cited at each definition).
* numpy, ephem, healpy, the libc and the file system below `dio.c` are modelled by their documented behaviour.
* Not modelled: floating point rounding (except as above), `ephem`, healpix_cxx internals (the ring/nest
  conversion is an abstract bijection), FFTs (taken as exact DFTs), FITS I/O, scipy optimisers, the command
  line scripts, the data tables in `_src/`, velocity/line handling and most `uvset` options in `uvio.c`.

## Properties: what is modelled and how it is proved

### Codes (`Verif/Codes`)
* **C01, C02** `ij2bl`, `bl2ij` on Nat with the radix switch. Algebraic law by `omega`/div-mod lemmas;
  injectivity follows from the left inverse on ordered pairs; counterexample at antenna 2047.
* **C03** `MKBL/GETI/GETJ` on Nat plus `f32 : Nat -> Nat` (round to nearest even with 24 bit significand);
  proof: codes < 2^24, `f32` is the identity there.
* **C04** tables as association lists (`decide` over the finite table is the whole domain), `ijp2blp`
  algebraically.

### Command line (`Verif/Scripting`, `Verif/Miriad`)
* **C05** `parse_chans` from the string on: the theorem renders an arbitrary list of items to a string and
  parses it; splitting and integer printing/parsing have their own round-trip lemmas (`Util/Text`).
* **C06** The regular expression is a hand written recogniser on characters; grammar AST + printer;
  theorem: `parse (print e) = denotation e`.
* **C07** `uvselect`/`uvread_select` as a state machine (clauses with antenna table and operation groups);
  refinement to a predicate evaluated left to right, for every sequence of select calls, then for the calls
  `uv_selector` makes.  dazim/delev are outside.
* **C08** `parse_prms` from the string on: items -> nested association list.
* **C96** `Srcs`: parse_srcs on lists of characters, `float` an arbitrary partial function; composed with `getCatalog` of C55.  The specification
  prints a list of requests (`Ask`) and asks what the catalog holds for them.

### Fit (`Verif/Fit`)
* **C09, C10** `flatten_prms`/`reconstruct_prms`: round trip for lists of two or more, slices tile the vector.
* **C11** per class get/set tables (sources, special sources, catalogs, antennas, dual-pol antennas, beams).
* **C12** heap model with references for phase polynomials and beams; frame theorem over histories.

### Array physics (`Verif/Phs`, `Verif/Amp`)
* **C13** list comprehension model; `Nodup`, membership, length by induction.
* **C14-C16, C68** matrices/vectors over ℝ, `Complex.exp`; algebra.
* **C17** sums over source lists; conjugation; stated for the answers of `sim` after any history.
* **C18, C69** state machine with caches; invariant "cached value = recomputed value", induction over
  histories; C69 adds changes of the antennas between calls.
* **C84** `Arrays`: the same calls with numpy arrays (`Util/ND`: shapes, broadcasting, squeeze, reshape, compress); the arrays
  are related to one row per source, and the relation survives the reshaping that `gen_phs` does in place.
* **C85** `Mdlvis`: the callback `mdl` of mdlvis.py with its global `curtime` and the array state of C18 (`St`), over lists of
  records; the loop that writes a new file.  An invariant (`Kept`: the cache is the one of `curtime`) is carried over the records
  and C18 gives each answer.  `IsModelled` states the result per record and channel from `vis` (the sum over sources) alone.
* **C86** `ApplyCal`: `mfunc` of apply_cal.py: division by the passband, then `phs2src` to the zenith.  The gains and offsets factor
  out of a visibility (`vis1_plain`), which leaves the visibility of `SArr.plain` (unit gains, no offsets).
* **C98** `Stokes`: antennas with two feeds (pol.py) as dictionaries that may lack a key; the beams are those of C72/C73, the visibility is
  the product that amp.py's sim forms for one source.  By case analysis on the polarisation; I/Q beams by the inequality of Cauchy and Schwarz.
* **C89** `PhsScript`: the callback and the loop of phs2src.py over lists of records; `toZenith`/`fromZenith` are `phs2src` and
  `unphs2src` with 'z'.  `Times` states the factor per record and channel.
* **C72** products of rotations (C19) and angles (C21); conjugating a rotation turns its axis. **C73** beams over ℝ with
  `arcsin`, `exp`; the cosine series of the polynomial beam is compared with a Mathlib finite sum.
* **C60** beams and phase polynomials by address; invariant "derived = recomputed" over histories of
  array-level calls.

### Coordinates (`Verif/Coord`)
* **C19, C20** 3x3 real matrices; `ring`/trig identities.
* **C21** real `arctan2` modelled through `Complex.arg`; round trips.
* **C92** `Convert`: `Frames` gives for every system and epoch the rotation from a fixed frame (what ephem computes; its contents are
  not modelled); `convert` goes vector → angles → frame → angles, `convertM` replaces the columns of the identity one after the other,
  reading each from the matrix as it is by then.  `c92_matrix`, `c92_chain`, `c92_frames`, `c92_round_trip`, `c92_unknown`; `c92_note_violated`: the matrix with
  reversed arguments, which the docstring tells to use, is the conversion iff the matrix is its own inverse.
* **C88** `ParAng`: `along` is the great circle from a point at a position angle, built from the directions north and east
  (points a quarter circle away); trig identities and the polar form of `arctan2`.

### Imaging (`Verif/Img`)
* **C22** functions on index tuples, one axis after the other as in the code; group action.
* **C23** `word_wrap` on lists of characters.
* **C24** list model of append_hermitian, gridding by add2array, inverse DFT.
* **C25** loop over sorted w with `searchsorted`; partition theorem by strong induction.
* **C26, C27** `add2array` on flat arrays with strides and index normalisation.
* **C28, C29, C58** integer window `floor/ceil` and modulo; footprint weights as an arbitrary function.
* **C59** the plane cache of `ImgW.get` over histories of put and get.
* **C75** `Pixels`: offsets modulo the size, direction cosines as products with an orthonormal frame; the delay by C14.
* **C103** `MkImg`: mk_img.py as a state machine over the records with the variables of its loops (image, buffer, counters, current
  time, time of the array, pointing).  Without snapshots: induction over the records keeps image and buffer together equal to the samples
  given so far, and the length of the buffer equal to the number of records that gave samples modulo the size of the buffer.  With snapshots:
  an invariant over integrations (`Inv`).  `c103_batches` joins the model of `Img.put` (C28): what is in the matrices is the sum of what the
  samples leave, whatever the batches.  What calibration makes of a record is a parameter of the model.
* **C76** `Imaging`: the inverse transform of a footprint is a phase times a kernel, summed over samples by induction; for
  samples on grid points the kernel is a product of two real cosine sums, bounded with bounds of exp.
* **C77** `WProj`: orthogonality of the roots of unity gives the convolution theorem for the turned kernel; a fold over
  the chunks of C25; the error bound from |exp(ix)-1| <= |x| and the width of a chunk.
* **C97** `WordWrap`: word_wrap on lists of characters, python's floor division and slices included.  The specification cuts the text
  into pieces and the pieces into lines without mentioning the loop; induction over the words with the lines made so far.
* **C78** `SimImage`: `sim` by C18, `gen_phs` by unfolding, the delay by C75, the image by C77.

### HEALPix and maps (`Verif/Sky`)
* **C30** array with index list. **C31, C61** the ring/nest conversion and the pixel geometry are parameters.
* **C32** triangular index, bijection onto range. **C33** bit reverse order and local shuffle permutations.
* **C34, C35, C62, C63** weighted means over a field; numpy type of the weight map where it matters.
* **C104** `MkMap`: lines 27-74 of mk_map.py as a fold over the images, on top of `Map.add` (C34), `Img.get_top` and `get_eq` (C75) and
  `convert_m` (C92); real numbers.  The variables that live from one image to the next (`prev_dra`, `DIM`, `RES`, the weights) are the
  state.  The specification has the direction of a pixel from its offset from the middle, and finite sums over rows and columns.
* **C93** `ModMap`: lines 81-123 of modmap.py over the model of the weighted map (`get`, `put`), real numbers; `Pix` is an arbitrary pixelisation
  (angles of the pixels, pixel of a direction).  `Covers` says which pixels a source belongs into without the script's way of finding them
  (ellipse with the longitude as an angle, direction by one change of frame).

### Deconvolution (`Verif/Deconv`)
* **C36-C39, C64, C65** one generic CLEAN loop over a finite cyclic group index (1-D and 2-D are instances)
  and an ordered field / ℂ; `step` state machine; invariants by induction over steps; termination by a
  well-founded measure.
* **C40, C66** anneal and lsq with an arbitrary stream of proposals.
* **C94** `MaxEnt`: the iteration of maxent over ℝ on any finite index, the FFT convolution an arbitrary map; an image, alpha or score that is not finite
  is `none`.  The specification (`slope`, `curv`, `misfit`, `objective`) is written with sums and logarithms, not with the functions of the model.
* **C95** `FindVar`: the search as a step machine around the model of C94; `trial` is the closed form of the variances tried.  Completeness: the
  trials of round n+1 are multiples by a factor tending to 1 over a range tending to everything.

### DSP (`Verif/Dsp`), Misc (`Verif/Misc`)
* **C41** windows over ℝ. **C55** catalog dictionaries. **C74** source objects on a heap shared through
  module globals, over all histories. **C56** affine maps, and 53-bit rounding.
* **C57, C67** list models over a field.
* **C105** `CatFiles`: `fromfile` of the catalogs of `_src`, on the characters of the file: `readlines`, `split('\t')`, `split()`, `strip`, the column
  numbers of each survey. `float` is a parameter (with the assumption that it ignores a newline at the end). The specification has the columns, units
  and frequencies of the surveys as tables of its own, and describes a file as rows and other lines (`Line.Ok`).
* **C106** `CatCache`: the variables of the modules as state, `get_catalog` as a step; the result is compared to `getCatalog` of C55 on the catalogs
  of the files.
* **C108** `Helm`: both files of the Helmboldt catalog on their characters, with slices and `split()` as in the code and real numbers for the fluxes.
  The specification writes rows by the byte-by-byte descriptions at the head of the tables (`PosRow.text`, `FitRow.text`), says what a column holds
  (`Holds`) and has the spectrum of a fit as equation 1 of the paper (`Spectrum`).
* **C109, C110** `Xtalk`, `XtalkDay`: the three loops of xtalk3.py over a directory of data sets (lists of records) and npz files (tables), with
  exact numbers of a field, any function for the name of a time, and a switch for python 2 or 3.  Invariants over the records (sum and number per
  baseline) and over the arrays (levels, sum and number per baseline) give the means, levels and shapes; `-o`, `-r`, `-i` are composed.  How
  records are read and written is C47-C51, C70 and C79.
* **C111** `Combine`: the loop of combine_freqs.py over a directory of data sets (frequency axis and records), with a switch for a numpy that takes
  floats as lengths (`nchan/opts.nchan` is one).  The specification counts and averages over index sets (`good`, `meanOf`, `meanFreq`).
* **C112** `ApplyBp`: apply_bp.py over a directory of data sets, with `np.polyval` as Horner's scheme; the specification evaluates polynomials as sums of
  powers.  The two polynomials that `np.polyfit` fits to measurements are parameters (seven coefficients, not zero at 10).
* **C113** `Cal`: cal.py, with the modules as a table (missing, failing, with or without the two functions) and the lookup of names bound by `exec` in
  python 2 and 3 (`lookup`).
* **C114** `Amp/FluxCal`: flux_cal.py with what is carried between records and files (time, cache of the array, spectrum); the responses of the array and
  the source are functions (C17, C74, C84).  The invariant says that what is carried belongs to the time.
* **C115** `Misc/AmpClose`: `scripts/amp_close.py` 53-117 as a fold over the records into the dictionary of sums and counts, the list of antennas, the matrices `A`, `W`, `b` as Mathlib matrices with the padding rows of the script, and the exact inverse (`none` if singular or if there are more baselines than rows). `c115_gains_partial` derives regularity from the hypothesis that the baselines determine the gains (`Determined`, a statement about records only) and gives ratios and mean of the printed gains; `c115_base_violated` and `c115_flag_violated` are the two disagreements. Not modelled: weights other than `equal`, plots, rounding, python 3 (where `pols.sort()` raises).
* **C116** `Amp/BeamAlm`: `BeamAlm` of amp.py 180-214 with `Alm.set_data`, `HealpixMap.from_alm` and interpolation of healpix.py; healpy (`alm2map` with and without pixel window, interpolation weights) is a parameter, so that the theorems hold for whatever it computes. The response is a Horner evaluation over the reversed list; `horner` turns it into the sum over powers. Python's negative indices are in the model (`pyIndex`).
* **C117** `Img/Fits`: `to_fits`, `from_fits`, `find_axis` of img.py 328-439 with a header as a dictionary of cards (numbered ones apart), files by name. `world` is the FITS convention for the coordinate of a pixel, independent of the code. Not modelled: BSCALE/BZERO/NAXISn (set by pyfits), DATAMAX/DATAMIN, comments, history (C97), `from_fits_to_fits` (raises in python 3).
* **C118** `Sky/MapFits`: `Map.__init__`, `set_nindices`, `to_fits`, `from_fits` with `HealpixMap.from_fits`, `HealpixMap.to_fits`, `set_map`, `_set_fits_header`; a file is a table of columns of one length (shorter ones padded) and the card ORDERING. `nsideOf` is the inverse of `12 n²` for powers of two. Not modelled: number types, the other cards, versions of pyfits without `new_table` (which raise).
* **C119** `Img/GaussBeam`: `convolve2d` with transforms as the sums that define them (`Dsp/Dft`), `gaussian_beam` through `recenter` of C22, `beam_gain`. `fft_conv` is the convolution theorem for one axis; indices are subtracted in `Fin`, i.e. modulo the shape.
* **C120** `Misc/InterpFull`, `Util/Double`: `polyextend`, `default_filter` and the number of taps, on top of the convolution of C67. `polyfit` is a parameter that finds a polynomial through all points when there is one (`Exact`; least squares does). `rnd` is rounding of positive rationals to doubles, ties to even, without over- and underflow; only the size of `np.arange` is rounded, all else is exact. `lag` pairs the taps around the middle.
* **C121** `Sky/Sphere`: `pack_sphere` with the sizes of both `np.arange` computed in doubles (`Util/Double`: `rnd_err`, `rnd_scale`, `rnd_eq`); `pi` and the root of 5 are rounded from the reals with Mathlib's bounds. Coordinates are exact.
* **C122** `Scripting/SrcList`: srclist.py; positions and distances are functions (ephem is not modelled). `InArc` is the eastward arc, `Asked` the conjunction of the options. `printed` builds the text character by character; the model of `parse_prms` of C08 reads it.
* **C123** `Misc/Compress`: compress_uv.py on a disk of files by path, an archive being its list of members; the command is split at blanks as the shell does. `tar` fails or works, and leaves no file when it fails (the script then stops). `Within` (a path below a directory) is the specification's own.
* **C124** `Fit/FitScore`: `fit_func` of fitmdl.py with cache, `first_fit`, and the master's version; values are numbers, infinity or NaN. `chi2` of the specification is a sum over the last record of every sample, in terms of records only.
* **C125** `Fit/Snap`: the loop of `--snap` on the model of decimation of C50. A file is given by its integrations; the specification is `g[n * c + p]`. `sel` counts down to the next integration wanted and links the two decimations.
* **C126** `Fit/Shared`: the dictionaries of `--shprms` and `--prms`, starting values and the propagation loop, as functions of object and parameter; a KeyError is `none`. `First` (the least name) and `Names` are the specification's.
* **C127** `Img/ClImg`: the uv coordinates of `Img.get_uv`, the weights (natural, uniform, radial, midrange), the masks, and the transforms of C119; images are square and exact. `Sees` (an image is the sky convolved with a beam) and `IsFreq` (the signed frequency of a pixel) are the specification's. In python 3 the script stops earlier: `keys.sort()` on a view of a dictionary.
* **C128** `Img/Restore`: `twodgauss.moments` (argmax, cuts, median), `twodgaussian`, the window of 30 pixels, both recentrings and the convolution. A width or amplitude of 0, which gives NaNs, is `none`. `blur` (a Gaussian around pixel 0 with the last 15 pixels before it) and `spread` are the specification's.
* **C129** `Dsp/FindDelay`: the loop over records as a state machine, `clean_delay` through the CLEAN of C36 and the transforms of C90, the last largest bin, `linspace`, the matrices with Mathlib's determinant and inverse. `Delayed`, `Good`, `Joined` are the specification's. `Dsp/FindDelayBetween`: the transform of a signal between the bins times |sin(pi (m-s)/N)| is the same for all bins m (geometric sum), and the sine is smallest in the nearest bin.
* **C130** `Misc/XrfiSimple`: the dictionaries as the last record of a key, the statistics over reals with `Util/Median`, `--combine` as counts, npz files as the table saved. `samples`, `tooHigh`, `jump`, `Jumps`, `Distinct` are the specification's; the times and the matrix of a baseline are described by their properties in c130_flags_partial.
* **C131** `Mir/Amplitude`: `AMP` of each clause beside the clauses of C79, `uv->amp` during `uvread_select`, and the clipping of `uvread_flags`, in the reader of C79. Floats are reals and a rounding function with a bound of the relative error; `Applies`, `Limited`, `Clipped` are the specification's: a clause's interval applies where the clause is evaluated and keeps the record. The proof shows that the reader is that of C79 followed by the clipping.
* **C132** `Mir/Window`: `WINDOW` of each clause with the loop for `first`, `last`, `n`, the checks of `uvread_init`, `uvread_line` and what python's arrays contain afterwards. One record that the other selections select. `Kept`, `InWin`, `wantedChans`, `Block` are the specification's.
* **C133** `Mir/SelectKinds`: the tests of the operations of C07 (`uvselect_c` 2337-2461, `uvread_select` 3190-3512) over the reals, `uvread_shadowed` with its rotation of the antenna positions. `Named` is the specification's: time of day as `Int.fract`, lengths as square roots, angles up to full turns, shadowing by dot products with the direction of the phase centre (the proof shows u²+v² = |b|² - (b·s)²). Each kind is one lemma `known_…`; the combination is C07.
* **C134** `Misc/PlotUv`: the loop of plot_uv.py over the records as a state machine (times, chosen times, rows per baseline); `all_integrations` by induction on the integrations. The specification knows integrations, `TimeOpt.Names` and imshow's even division of an extent (`middle`); the delay transform with Mathlib's complex exponential.
* **C135** `Misc/PlotMap`: the script's own `Basemap` over the reals (`wrap`, `fwd`, `inv`, `makegrid`), pixels through `convertM` (C92), labels through `eq2radec` (C21), clicks. The specification is `skyAt`, the direction of a point of a cylindrical picture written with sine and cosine, and the edges of a pixel.
* **C136** `Misc/RfiDiag`: records, the tables by baseline and time (the last record of a key), the four strategies, the counting over files as a fold, maximum, axis, panels and `--best`, branch by branch; `gen_rfi_thresh` and `flag_by_int` are parameters (C100), second differences and medians are those of C130. The specification counts records of the files directly (`Lost`).
* **C137** `Misc/PlotImg`: the loop over the axes as a fold over their names, the averages, the transposition, the modes, the limits, the panels and the batch, the corners of the picture and what a click prints, branch by branch; cubes are functions of a list of indices. The orthographic projection and its inverse are written out as formulas (basemap itself is not modelled); the specification places a pixel by the direction `seen` at its tangent-plane coordinates. `-f` is not modelled.
* **C138** `Mir/Views`: arrays as a memory of 32-bit words with offset, stride, length and type; what `_wrvr`, `raw_write`, `UV.write` (through `astype`, which makes a contiguous copy) and `grid2D_c` read of them. The specification `shown` walks the strides.
* **C139** `Handles`: the table of open data sets as a state machine: `hcreate_tree_c`'s hash and search, `hopen_c`/`uvopen_c`
  succeeding and failing, `uvclose_c`, and `bug_c` with `habort_c` on every odd-numbered fatal error; python objects hold a number
  only, a method on an empty place is undefined behaviour.  The spec is a list of independent data sets and a disk by names.
  `c139_sessions_partial` (refinement by induction over programs without errors, distinct places, 25 at a time), `c139_raised`
  (not allowed is an exception), `c139_kept_partial`, `c139_second_partial`, and the violations `c139_error_violated`,
  `c139_overflow_violated`, `c139_leak_violated`, `c139_reopen_violated`, `c139_name_violated`.  Not modelled: the table of items,
  other i/o errors, the contents of data sets; a data set being written is taken as unreadable until closed.
* **C140** `PullAnts`: the loop of pull_ants.py over files and a disk of record lists; `mfunc` with python's int and str kept apart.
  `c140_pull_violated`, `c140_rerun_violated` (induction over the runs), `c140_mfunc_violated`, `c140_kept_partial`.
* **C141** `StokesRotate`: `pol.UV.read_pol`/`write_pol` over the table of C04 and the loop of stokes_rotate.py.  `c141_round`,
  `c141_unknown_violated`, `c141_rotate_violated`.
* **C142** `Special`: an instance as its own attributes and an ephem body that remembers the observer last computed; reading mirrors
  Python's order (instance, class, `__getattr__`) with a limit on nesting.  `c142_get`, `c142_set_get`, `c142_crds_partial` over every
  history by induction; `c142_shadow_violated`, `c142_copy_violated` for every limit.  Not modelled: setting `Body`, what ephem computes.
* **C143** `SrcText`: `str` of a fixed source; numbers are written by an arbitrary function without tabs.  `c143_columns` (splitting gives
  the columns back), `c143_injective`, `c143_before_violated`, `c143_guard_unused` (the caught case never arises).
* **C144** `ReadInfo`: lines 342-353 of `read_files` on top of the loop of C52.  The spec speaks of integrations (groups of records of one
  time, the time changing between groups) and of the only record of a baseline in a group.  `c144_rows_partial`, `c144_gap_violated`,
  `c144_freqs_partial`, `c144_tuning_violated`, `c144_recast`.
* **C145** `Scripting/Options`: `add_standard_options` and the declarations of every script (`scripts`, a table transcribed from their
  `add_option` calls: names, destinations, types; defaults of the scripts' own options are left out), on a model of optparse's `add_option`
  (conflicts are refused) and `parse_args` (short clusters, long names with abbreviations, `=`, `--`, interspersed arguments).  optparse is
  part of python and not of /repo: the model follows its documentation, and is part of the trusted base.  What a text means as int or float is a
  parameter `num`.  The spec (`Item`, `Means`, `lastOf`) speaks of words written and values last given.  `c145_line` is by induction over
  the command line; `c145_standard`, `c145_scripts`, `c145_twice` and `c145_reads_partial` are finite tables (all 1024 selections, all scripts).
  `c145_cluster` (OptCluster): letters that share a word; added after a wrong program that dropped the rest of such a word went unnoticed.
  `c145_ambiguous`: beginnings of two names or of none; added after a wrong program that took the first of two went unnoticed.
* **C146** `Img/GridFlux`: `grid1D_c` and its wrapper, on the loop and the memory of C28.  The sum of the Gaussian over all integers is turned by
  Poisson's formula (`Complex.tsum_exp_neg_quadratic`) into 1 plus terms of at most exp(-pi^2/2), and what lies outside the footprint is at most
  10^-5; so the bounds hold for every real position.  `footprintOf` models that `PyArg_ParseTuple` with the format `i` fills the lower half of a `long`.
* **C147** `Mir/UvText`: UTF-8 (encoder and strict decoder; proved inverse to each other, `dec_enc`, `dec_sound`) around what the record stream of C47
  carries; the size handed to `uvputvr_c` is the number of characters plus one.  The spec (`surplus`) counts bytes beyond one per character.
* **C148** `OffGrid`: nothing new is modelled; `Img.put`, `genImg` of C28, C75, C76. Spec: `fourierSum` (no gridding), `fade` (transform of
  the Gaussian), `ghost` (the same one image width on). By Poisson summation in the direction t (`poisson_at`) the weights of all integers
  are `fade t` plus copies, bounded by a geometric series (`whole_axis`), and the tail beyond the footprint is below 1e-5
  (`axis_close`); the footprint is a product of two axes (`kernel_axes`). `c148_image`, `c148_source`; `c148_edge_violated`: at t = 1/2 and
  half a cell the terms j and 1-j cancel exactly (`axis_edge`).
* **C149** `WriteArgs`: the forms of the arguments of `UV.write` (`PyData`, `PyInts`: arrays with shapes, masks, `None`, anything
  else) and the checks of `raw_write`, with the exceptions as values.  `Says` states which calls say what is to be stored; both
  directions are proved, and files by C48 (`session_blocks`: calls that raise leave the file as it is).
* **C150** `UvList`: uvlist.py as two loops (files, keywords) that yield the lines printed and what ended them; `UV(uvfile)`, `uv.items()`,
  `uv.vars()` and `uv[key]` are those of C101.  The specification says what a keyword of the program that wrote the data set is
  (`Keyword`), what value it has when the data set has been opened (`Value`) and which have none (`NoValue`).  The text that
  Python makes of a value is not modelled.
* **C151** `CleanArgs`: `deconv.clean` with the wrapper of `deconv.cpp`: arrays have a shape, a type and elements by index; the initial
  residual (with numpy's broadcasting), the area (`astype(int_)`, of which the C++ code reads the lower 32 bits) and the checks of ranks,
  dimensions and types decide which loop runs, the loops being those of C36-C39.  The convolution that the FFTs compute is an argument `cv`
  in `CleanArgs`, assumed to be the cyclic convolution (`conv1`, `conv2` in the specification are written with natural-number indices);
  `CleanFft` computes it with the transforms of `Dsp/Dft` and proves the assumption (`c151_real1` ... `c151_complex2`).  A kernel that is zero everywhere inside the area is a case of its own, since `1/0` is not a number there:
  the outcome `nan` or `hangs` is put down from reading the code.  Arrays without elements and cubes of unequal shapes are `wild`
  (memory outside the arrays), without further detail.
* **C152** `LsqConv`: the arguments of `lsq` with the kernel put through the transforms of the code (`Fit.Lsq` leaves the map from model to image
  open). The product of transforms is shown to be the cyclic convolution (C119), so that a pass is `raise`, a step of fixed length along what is
  left; `c152_passes` by induction over the loop, `c152_components` by the convolution theorem, `c152_converges` by the inverse transform.
  `c152_never`: the ratio of two scores is `(1-gain/2)^2`. `c152_offcentre_violated` by an invariant of the two pixels with both bounds in force.
* **C153** `UvSet`: the `UV` object of a file that is written as a state machine: `vartable`, the types known to `uvputvr_c`, and the list of writes;
  values go through `encode` of C47. `c153_set` by induction over the calls against `declared`, which looks through the calls from the last one back;
  `c153_one_type` and the type used in `c153_set` by an invariant that ties the known types to the writes.
* **C154** `HelmFit`: `get_params` of a Helmboldt source, the inherited `set_params`, joined with the flat vector of C09.  A list of one
  number and that number have one flat form (`flatten_normP`), so the round trip of C09 applies to the dictionary with such lists replaced
  (`c154_identity`).  `c154_step` is the spectrum after a fit in terms of the fitted numbers, `c154_names` the parameters,
  `c154_catalog` that the hypothesis holds for the sources of the catalog.
* **C155** `Mir/UvOverride`: `uv_override` with the parts of `hdprobe_c` and `rdhd*_c` it needs, and the effect of the override flag in `uv_scan`.
  `Mir/UvOverrideRewind` adds `uvrewind_c` and when a replaced number counts as updated.
  Records are events, items are given by tag and values, the conversions are arbitrary functions.  `c155_numeric` and `c155_string` are
  invariants over all records; `c155_untouched` compares with the file opened without items; `Means`, `Spoils` and `lastSize` are the
  specification.
* **C107** `Culgoora`: the rows of the Culgoora table; `AsDocumented` is the docstring of `fromfile`.
* **C90** `Dft`, `FilterSrc`, `FilterProps`, `FilterC90`, `FilterMore`: filter_src.py on the records of one file.  `fft`/`ifft` are exact sums with
  their inversion (`orth`).  Both passes are modelled with their dictionaries and counters; CLEAN is the model of C36 (`cleanPy`),
  which gives back its input when the kernel is a delta (`clean_ones`) and returns always (C39).  `HoldsRows` is the invariant of the
  first pass, `pass2_ok` shows that the n-th record of a key gets the n-th row.  The specification is in terms of `tones`
  (exponentials over the channels) and `InWindow` (delays modulo the band).  Parameters: the phases of the source (`Sight`),
  `padlen` (a rounded-up float), the tolerance.  Not modelled: the history, the time bookkeeping (the phases depend on the record only).
* **C102** `Spikes`: `rfi.remove_spikes` over the reals with `np.polyfit` as a parameter. What is assumed of it is written out as
  `LeastSq` (degree at most `order`, least sum of squares), and `fits_exists` proves that such fits exist for every order, so that
  the theorems are not empty. `c102_masked` needs nothing of the fit: at least one sample stays in use because not all residuals
  exceed their root mean square (`farther_lt`), and masks only grow. `c102_smooth` and `c102_recovers` use that a polynomial
  through more points than its degree is unique. `c102_single_spike` is for order zero, any height and place, any length from three.
  `c102_first_partial` is one round without a mask; later rounds and masks are where the code is wrong (`c102_shift_violated`,
  `c102_wrong_sample_violated`). Not modelled: `gen_rfi_thresh` (raises in python 3, see C100), `flag_by_int`.

### MIRIAD files (`Verif/Mir`)
* **C91** `SkyPass`: `gen_skypass_delay` with `np.round` (halves to even) over the reals, the table of the windows of all pairs of
  antennas (lookups through the baseline codes of C01/C02), and the script with that table.  `c91_window_partial` states the delays kept and
  removed with `Near`/`Far` (some/all whole-band aliases of the bin), from the lengths of the equatorial baselines (`c20_isometry` for
  the rotated ones of the script); `c91_source_partial` follows by Cauchy-Schwarz for the fringe of a source in any direction, with a
  delay that is a whole number of bins (other delays spread over all bins, of which the filter keeps part).
* **C42** `Pack`: `BitVec` and byte lists, every word.
* **C43, C44** `Mask`: 31-bit words, a window of 128 words, flush and fill with the partial word merge, both
  formats.  Refinement to a bit array over any history (writes may not start beyond the end).
* **C45** `Hio`: the buffer of an item (64 bytes cached, 16 KiB with a file), refined to a flat byte array
  (`HioProps`: accesses share an alignment; `HioSeq`: element sizes mix in append order).
* **C46** `Tree`: items in memory, the header file, files of their own, over histories of sessions (write,
  append), deletions, flushes, close and reopen.
* **C47** `UvStream`: the record stream of `visdata`.  The writer emits `hwrite_c` calls; the reader parses the
  bytes.  Refinement: after the n-th record each variable is the last value put before.  `UvVars` carries it to
  the Python wrapper.
* **C48** `UvVis*`: `uvwrite_c` (change cache of the preamble) and `uvread_c` on top of it, with the flag file of C43.
  Floating point comparison is abstract (`FpLaws`).
* **C70** `UvAppend`: `uvclose_c` and `uvopen_c(.., "append")` between blocks: `DataSet` (what a file must satisfy to be read)
  is proved of files written in any number of sessions.  **C71** `UvObstype`: the flags behind `obstype`.
* **C79** `UvSelect*`: the loop of `uvread_c` with the clauses of C07 and the records of C48.  `loop_ok` by induction on the
  records left, from `dataset_step` (one record), `see_ok` (what the selection looks at is what was written) and
  `beyond_maxvis` (the early stop).  `wanted` filters the written records with `SpecSelected` of C07; `Sees` is an abstract
  machine with a position and a specification.
* **C49** `Scale`: rationals with a rounding function of bounded relative error.
* **C50** `Decimate`: the loop of `UVObject_read`. **C52** `ReadFiles`: the grouping fold on top of it.
* **C51** `Pipe*`: `UV.__init__`, `init_from_uv`, `pipe`, `uvtrack_c`, `uvcopyvr_c`.  `PipeC51`: any source the reader can
  read; `PipeEnd`/`PipeWhole`: sources written with aipy, end to end; `PipeMore`: override and exclude; `PipeItems`:
  header items and history; `PipeDemo`: a concrete data set and the disagreements.
* **C80** `PipeSelect`: `pipe` on a file with a selection.  `copy_list` (of C51) copies any list of records that a chain of
  reads has returned; `select_listed` shows that reading with a selection is such a chain (the mark of `uvread_c` stays
  where it was before the first record that is skipped).
* **C81** `UvDisk`, `UvDiskVis`: the record stream (C47, C48, C70) on the item layer (C45).  `drun` is the writer with its
  `hwrite_c` calls on the item, `hscan`, `huvread` are `uv_scan` and `uvread_c` with `hread_c` on the item.  `Disk` ties the
  item, the flat file it stands for and the writer (every record starts at a multiple of eight, the file ends less than
  eight bytes before the next record); `Loaded` says that an opened item has bytes; `hscan_eq`, `huvread_eq`: a read through
  the item is the read from these bytes.
* **C82** `HioText`, `TreeSeq`, `UvDir*`: a data set as a directory.  `UvDir` has `uvopen_c`, `uvclose_c`, `uv_vartable_out`,
  `uv_vartable_in` on the items of `Tree`; `hreada_c`/`hwritea_c` are in `HioText`.  `DInv` says what a program that appends
  has in memory, `Closed` what is in the items; `wstep_out` (the writer does not look at what it has written) makes a writer
  that starts with an empty list the same as the one of C47 that had the file open all the time.
* **C87** `PipeDir`: `init_from_uv` and `pipe` from directory to directory.  `copyRun` reads the source through the items of its
  directory (`hopenUv`, `hpipeLoop` on the reader of C81/C82), writes the items into a new tree and the records into a stream;
  `closeCopy` is `uvclose_c`.  `hpipeLoop_eq` and `hopenUv_eq` show that reading through the items is reading the bytes, so that
  the records are those of C51; `copy_tree` and `last_copy` say what is in the items; `copy_dinv` joins both to the directory
  invariant of C82, from which `c87_whole` and `c87_mfunc` read the copy back.
* **C99** `PipeStDir`, `PullPol`: `copy_state_dir` is the theorem of C87 for an `mfunc` that looks at the variables of the source, keeps a
  state and may raise; `pullPol` is the `mfunc` of `pull_pol.py` (the name of the current `pol`, among the names asked for).  `PolsAre` says
  what the records' `pol` is in terms of the writer's events; the names come from `str2pol` (C02).
* **C100** `TwoPass`, `Xrfi`: `two_pass_dir` is the theorem of C99 for scripts that read a file once to gather something, rewind and then copy
  it: after the first pass the variables have the last values, so what `init_from_uv` writes are those (`end_state`, `hlast`), and the second
  pass reads the same records (`read_same`).  `xrfiStep`, `xrfiFin`, `xrfiPipe` are the first loop, what is between the loops and `rfi_mfunc` of
  `xrfi.py`.  The spec speaks of bytes (`IsZero`: nothing but signs), of the last record with the same polarisation, antennas and time
  (`LastLike`) and of the channels of `-c`.  The modes that raise are modelled as raising (python 3, numpy that wants an integer number of bins).
* **C83** `PipeState`, `AddSub`: `pipe` with an `mfunc` that has a state and may raise; `copy_state` carries the theorem of C51
  over (`runProc` is the run of `mfunc` over the records).  The state of `uv_addsub.py` is the reader of the second file.
* **C53, C54** `Header*`: `_rdhd`/`_wrhd` and `headio.c` over the data sets of C46.
* **C101** `UvGet`: `_gen_vartable` is a loop over lines and words of the text that `_rdhd('vartable')` gives; that it yields the table of the C
  library (`vartable_eq`) was assumed until C100 and is a theorem now.  `pyOpen` is `UV.__init__` with that table and `uv['nchan']`, and is shown to
  be the opening that C51, C87, C99, C100 use.  The specification of `vars()` is the set of variables that the events of the program name; that of
  `uv[name]` is the value of C47 (`shown`) or the item of C53 (`Head.shown`).  Names are ASCII.

## Disagreements between code and expectation found while modelling

Those with a theorem name are proved in Lean with a concrete witness; those without were seen while reading and
are outside the model or follow from the cited definition.

Data set directory
* A variable whose name has a blank is accepted and comes back under another name (`c82_blank_lost`).

Simulation
* With one active channel and several sources up `sim` raises: `resolve_src` squeezes its result and the product in `gen_phs`
  no longer fits (`c18_one_channel_violated`, `c84_one_channel_violated`, `c17_additive_violated`).
* The default flux of `sim_cache` makes every `sim` raise unless one channel is active (`c84_default_jys_violated`).
* An empty catalog cannot be simulated (`c84_empty_violated`).
* mdlvis.py in mode sim keeps the measured auto-correlations (`c85_auto_violated`).

Command line and selection
* A negative stride misses its end point (`c05_negative_stride_misses_end`); stride 0 raises (`c05_zero_stride_raises`).
* The feed suffix is not swapped when the antennas are put in order (`c06_feed_order_violated`); a lone group `(0,1)` is
  misread (`c06_lone_group_misread`).
* Records with descending antennas are looked up as another baseline (`c07_descending_record_violated`); `-1_2xx` also
  removes the other polarisations (`c07_exclude_with_feed_violated`); `all` ignores the polarisation
  (`c07_all_ignores_pol_violated`); `0,auto` is an "or" (`c07_auto_adds_violated`); dazim/delev are ignored when combined
  (`c07_dazim_ignored_violated`).  Calling `uv_selector` twice merges the first item into the last clause.
* Text after a complete parameter item is dropped silently (`c08_trailing_text_ignored`).

Fit parameters and arrays
* One-element lists come back as scalars, empty lists raise or take the next value (`c09_singleton_violated`,
  `c09_empty_violated`).
* `mfreq` is reported but never set (`c11_mfreq_violated`); `BeamAlm` reverses its coefficients (`c11_alm_reversed`);
  `pol.Antenna` reads `bp_i<p>` but reports `bp_i_<p>` (`c11_pol_bp_i_violated`); `dly`/`off` are overridden by `phsoff`
  (`c11_delay_overridden_violated`).  `BeamPolynomial.set_params` needs an array with `.shape`.
* The default `phsoff=[0.,0.]` is shared by all antennas (`c12_default_phsoff_violated`); `Antenna.set_params` on one of
  them leaves the derived phases of the others stale (`c60_antenna_violated`); a `select_chans` that raises leaves
  `chans` and `afreqs` different (`c60_bad_channel_violated`).
* The frame 'e' of `get_baseline` is rotated the wrong way (`c14_equatorial_frame_violated`).
* `set_ephemtime` does not invalidate the source cache (`c18_ephemtime_violated`); changes of beams or frequencies leave
  cached responses stale (`c69_beam_violated`).
* Polarisation y is at -pi/2 azimuth from x, not +pi/2 (`c72_y_azimuth_fails`); xwidth acts north-south for feed x
  (`c73_gauss_ew_fails`); the Gaussian beam rises again behind the antenna (`c73_gauss_backlobe_fails`).
* The docstring of `rot_m` about scaling by |vec| is false (`c19_docstring_scaling_violated`).

Imaging
* `recenter` moves in the direction opposite to its docstring (`c22_docstring_violated`).
* `word_wrap` with too little room drops text (`c23_narrow_violated`).
* `wres <= 0` never ends (`c25_loops_forever`); `ImgW.get` of a single sample raises (`c25_single_violated`); planes cached
  by a get survive later puts (`c59_stale_violated`).  `append_hermitian` mutates the caller's list of weights.
* 64-bit indices are truncated to 32 bits (`c26_long_index_violated`); a bad index leaves the samples before it added
  (`c27_bad_index_violated`).
* `grid2D_c` uses the number of rows as the row stride: out of bounds for tall, wrong cell for wide matrices
  (`c28_tall_violated`, `c28_wide_violated`); previous content of the output leaks into `degrid2D_c`
  (`c29_initial_content`); `Img.get` addresses the transposed cell (`c58_get_violated`).
* Columns to the right of the phase centre are west, not east (`c75_right_east_fails`); the gridding function is not divided
  out, so fluxes fall towards the edge (`c76_flux_fails`); `ImgW` images are `Img` images divided by the number of pixels
  (`c77_scale_fails`).  `gaussian_beam` is not normalised as its docstring says.

Maps
* `from_hpm` between orderings mislabels the data (`c31_from_hpm_violated`); from a coarser map it leaves interpolation
  switched on in the source (`c61_source_modified_violated`).  `from_alm` passes the scheme as `pixwin`.
* Pairs with l < m alias other coefficients (`c32_alias`).
* The facet order cannot be computed with numpy >= 1.10 for N >= 2 (`c33_raises_violated`).
* Duplicates in one `Map.add` count the old value twice (`c34_duplicates_violated`); `reset_wgt(c)` divides by c
  (`c35_violated`) and makes the weights integers (`c62_add_after_reset_violated`, `c62_put_after_reset_violated`).

Deconvolution
* A negative maxiter is reported as divergence (`c38_status_violated`); a zero residual never ends without stop_if_div
  (`c39_violated`); a run that ends by the tolerance does not restore its best state (`c64_violated`); with pos_def a stale
  component is repeated (`c65_repeats_violated`); info 'iter' is not the number of iterations without stop_if_div.
* Kernels that are zero inside the area give NaN; `area` is read as C int from 8-byte longs; 3-D input is treated as 2-D.
* `anneal(maxiter=0)` raises NameError (`c40_zero_iterations_violated`); the score of `lsq` is that of the step before
  (`c66_score_violated`), its start is not clipped (`c66_bounds_violated`); `maxent_findvar(var=None)` passes a float to `range`.

Other
* 'none' returns a scalar, parzen is symmetric in the periodic convention only (`c41_none_violated`,
  `c41_parzen_not_symmetric`).
* `get_srcs()` returns None (`c55_all_violated`), `get_catalog` drops unknown names (`c55_unknown_violated`);
  catalogs share their objects (`c74_shared_fails`), a cutoff overwrites fluxes (`c74_fluxes_lost`), Helmboldt spectra miss
  `jys` at `mfreq` (`c74_helm_flux_fails`).
* ephem -> JD -> ephem is not exact (`c56_ephem_round_trip_violated`).

MIRIAD files
* `pack16_c` cuts numbers beyond 16 bits (`c42_16_truncates`).
* A flag file that holds only its tag cannot be reopened; gaps beyond the end hold garbage (hypotheses of C43).
* Item I/O: a gap in front of the first write of a small item (`c45_small_gap_misplaced`), elements across an unaligned
  buffer end (`c45_split_element_lost`), an empty write beyond 64 bytes (`c45_empty_write_erases`), a far write on a small
  item (`c45_far_write_erases`); offsets beyond 2^31 overflow in `hwrite_fill_c`.  An item never written is not kept
  (`c46_empty_item_lost`).
* UV variables: values stay stale after a rewind (`c47_rewind_stale`); more than 128 variables cannot be read
  (`c47_many_variables`); strings grow a NUL (`c47_string_grows`); integer, short and complex arrays are corrupted
  (`c47_int_array`, `c47_short_array`, `c47_complex`); a string of 32768 bytes overflows the buffer of `rdvr` by one.
* Visibilities: a first time of w+1000 is never written (`c48_first_time_lost`); an assignment to `time`, `coord` or
  `baseline` confuses the change cache (`c48_preamble_lost`).  `UV.write` of a masked array calls a method `unmask` that
  does not exist.
* Single precision can lose more than one step (`c49_step_lost`), and copies drift (`c49_copy_drifts`).
* A first time of -1 is miscounted (`c50_first_time`), decimation by zero faults (`c50_zero`).
* Copies: a variable first set after the first record raises (`c51_late_variable`), as do integer arrays
  (`c51_int_array`); fewer channels give a garbage tail (`c51_fewer_channels`); a time changed by `mfunc` is not honoured
  (`c51_time_changed`); `exclude` is not respected after an earlier copy (`c51_exclude_again`); a source without history
  raises (`c51_no_history`).  Of the header items only those in `itemtable` are copied (`SameItems.unknown` in C87).
  `pipe(raw=True)` with the default `mfunc` raises TypeError.
* `read_files` with a single string iterates its characters (`c52_single_name`); an empty list raises NameError.
* Appending: a data set without visibilities cannot be appended to (`c70_empty_fails`); `corrmode` is ignored
  (`c70_mode_ignored`); `obstype` of a mixed data set becomes that of the appended session (`c71_mixed_lost`), and is absent if
  the baseline was assigned before the first visibility (`c71_assigned_lost`).
* Selections: `select('clear')` leaves the record number at which reading stops (`c79_clear_fails`); a selection made after
  an early stop is not seen before a rewind (`c79_reselect_fails`).
* Header: empty text is lost (`c53_empty_text_lost`); integers beyond 32 bits are cut (`c53_integers_cut`); non-ASCII text
  cannot be read (`c53_non_ascii`); an int for a double item raises (`c53_int_for_double`); text written by MIRIAD itself
  reads with its tag (`c53_obstype_tagged`).  `rdhdd_c` of an int8 item silently returns the default.

* phs2src.py without a source multiplies with exp(-i pi offset) where `gen_phs` uses 2 pi (`c89_offsets_violated`); with a named
  source `.values()[0]` raises in Python 3, and `--rot_uvw` gives an array that `UV.write` refuses (`c89_raises`).
* filter_src.py raises for polarisations not listed (`c90_other_pol_raises`) and with `--passband` (in-place product of a real with a
  complex array, `c90_passband_raises`); `-r 0` nulls only the zero rate (`c90_rate0`).  Auto-correlations are left alone with and
  without `-e`.
* maxent (C94): a perfect starting model or an image with negative mean ends as divergence (`c94_perfect_violated`, `c94_negative_violated`); tol above 1
  returns the unclipped starting model (`c94_bounds_violated`).  maxent_findvar (C95): raises without var (`c95_default_violated`), never ends
  with var = 0 (`c95_zero_violated`).
* parse_srcs (C96): sources of the 6C and 7C catalogs cannot be asked for by name, a source without flux takes their place (`c96_position_violated`);
  names beginning with "all" or with a `/` change the meaning of the list (`c96_names_violated`).
* cal.py: `exec('from X import get_aa as _get_aa')` inside a function does not bind the name in Python 3, so get_aa and get_catalog raise
  for any calibration file (read in the text; not modelled).
* word_wrap (C97): ind1 + 1 spaces before the first word; no room for a word is a ZeroDivisionError or the silent loss of the text.
* pol.py (C98): get_phs_offset of Stokes I and U is twice that of the correlations, of Q and V zero if the cables are equal, and that of V is
  symmetric in the antennas; passband has no key for Stokes parameters, so sim raises KeyError.
* pull_pol.py (C99): the default of `-p` is the number 8, which has no `split`, so the script raises without `-p`; a name given twice puts a
  line break after each of them in the history if it is the last one.
* `UV._gen_vartable` (C101): a variable with a blank in its name, which the C library accepts, is skipped, so that `uv[name]` is a `KeyError`
  (`c101_blank_violated`).
* `rfi.remove_spikes` (C102): the positions of outliers are those in the array without the masked samples and are put into the whole
  mask, so that with masked samples before it a spike stays and a good sample is dropped; the caller's mask is changed in place.
* mk_img.py (C103): when the last record of a pointing fills the buffer, its image is not written ("No data"), and since `continue` leaves
  `im` and the lists as they are, all its samples go into the image of the next pointing (`c103_lost_violated`).  A pointing with one sample
  gets no image, because `append_hermitian` takes one weight for a list of weights (`c103_single_violated`).  With `--snap=n` the first
  snapshot has n-1 integrations (`c103_first_violated`), and with `--src=zen` a snapshot is phased to the zenith of the integration
  before its first, since `aa.set_jultime` comes after (`c103_zen_violated`).
* mk_map.py (C104): where several pixels of an image fall into one pixel of the map, what earlier images put there is counted that many
  times (`c104_twice_violated`, from the `+=` of `Map.add`, see C34); the geometry is kept while `d_ra` is the same, so that a larger image
  with that `d_ra` is read in rows of the wrong length (`c104_stale_violated`).
* Catalog files (C105): rows with a name that comes again are lost; a row without a flux, or a line with more than four columns whose first is
  empty, makes `fromfile` raise.
* get_catalog (C106): after a file could not be read all later calls give an empty catalog; changes to a source handed out stay in the catalog.
* Culgoora catalog (C107): two measurements without an index get index 0, single upper limits are taken for measurements, and some sources have the
  flux `None`.
* Helmboldt catalog (C108): the measurements are kept in dictionaries of the class, so that a second catalog has them twice; a source without exactly
  one fit fails the catalog; a fit without the power-law columns is misread; `jys` of curved spectra is not the flux at `mfreq`.
* xtalk3.py (C109, C110): in python 3 `has_key` raises with every option but `-i`.  With `-r` the levels are looked up by the number of the file
  although files without npz file, and baselines missing from one, have added no level: levels go to the wrong file and the run ends in an
  IndexError.
* combine_freqs.py (C111): `d.shape = (opts.nchan, nchan/opts.nchan)` has a float and raises with numpy 1.12 and later; the default flags a channel made
  of as many flagged as good ones, although the help says `more`; `sfreq + (nchan/N * sdf)/2` is half an original channel above the mean frequency
  of the first channels; with `-u` only the first file is given to `init_from_uv`, so that the variables (`pol`, `lst`, ...) of the others are lost.
* cal.py (C113): `exec('from %s import get_aa as _get_aa')` inside a function binds nothing the function can see in python 3, so that `get_aa` always
  raises NameError there, and with it every script that needs an array; `get_catalog` raises UnboundLocalError when the module has a catalog and
  SyntaxError without a key (`from None import`).  An ImportError raised inside the module is taken for the absence of a catalog.
* flux_cal.py (C114): `sim_cache` is called only with `-f`, so that `-b` alone raises TypeError (the cache is None); with the source below the horizon
  the cache is `{}` and `-b` raises KeyError.
* amp_close.py (C115): takes natural logarithms and undoes them with `10**x`, so gains come out as powers `ln 10` of the gains; adds flagged data without counting them; the default `--src` is the text `None`.
* BeamAlm (C116): the scheme is passed as `pixwin`, so beams are smoothed by the pixel window; coefficients above `deg` are dropped silently, negative keys set powers from the top.
* img.to_fits (C117): `clobber` is ignored; arrays with a dimension of one raise; `freq` belongs to the middle entry, not the first; the reference pixel of an even axis is one before Img's centre; galactic coordinates are not read back; `find_axis` raises when it finds something.
* Map FITS (C118): `from_fits` appends index maps; ORDERING is `NEST` (`scheme == 'NESTED'` compares instead of assigning); one ordering is written for all columns; index maps read are not interpolated; the weights made for a one-column file are in RING order whatever the order of the data.
* img.gaussian_beam (C119): `amp` is the peak, not the area; the peak is at minus `center`; an integer `shape` is replaced by `2 sigma`.
* interp.interpolate (C120): for factors such as 6 (order 4) the grid of the filter has one point too many, as the quotient of doubles is just above an integer, and one value is missing; the window has the period N about a filter centred at (N-1)/2, so that lines are shifted.
* map.pack_sphere (C121): raises for N = 7, 14, 28, 56, 57, ... (one longitude too many); proved for 7 times powers of two.
* srclist.py (C122): the last comma of `--fitprms` is missing, so that `parse_prms` reads all but the last source; `--sep` without `--cen` lists nothing; moving bodies need a date; `-P` without `--fitprms` raises.
* compress_uv.py (C123): names are not quoted for the shell; with a trailing slash the archive is made inside the directory and removed with it.
* fitmdl.py (C124-C126): an exact start gives NaN and ends the fit; `--daemon=0` is not a daemon; the master raises without data; `--decphs` not less than `--decimate` mislabels snapshots; overlapping `--shprms` depend on order; the final parameters are printed without the shared ones.
* cl_img.py (C127, C128): `--pos_def` is passed inverted; with an odd number of pixels `get_uv` is not symmetric and the restored image is moved by one pixel along both axes; float slice indices and `keys.sort()` raise in current versions.
* twodgauss.py (C128): the row of the peak is searched with the columns' numbers as weights (and the other way round); the widths are measured from the other axis' centre and applied to the other axis; the height is not used.
* find_delay.py (C129): `linspace` includes both ends where the transform's bins do not, so that no delay is 0 for even numbers of channels; `f` in `clean_delay` is that of the last record read; the rows of constraints are missing and the matrix is singular; `keys().sort()` raises in python 3.
* xrfi_simple.py (C130): the threshold of `--combine` counts the file's own flags and the channels given like all others, so that they are dropped where fewer records than `thresh` have them; the second pass reads all records whatever `-a` selected; statistics include samples flagged already; `keys().sort()` and `values()[0]` need python 2.
* amplitude selections (C131): `uv->amp` is set by a clause that keeps the record and is not reset when a later `and` clause discards it, so that an `or` clause selects the record with the limits of another clause; two amplitude selections, in one clause or in two that both apply, are fatal errors.
* window selections (C132): uvio.c says that data of other windows are flagged and returned anyway; they are not returned, the selected channels move to the beginning of the arrays, and `UV.read` returns uninitialised memory behind them since it ignores `nread`. Discarding a window, gaps and `or` are fatal errors at the first read.
* uv.select (C133): `select('shadow', d, ...)` raises for every d other than 0, though d is documented as the diameter; the second number, documented as ignored, is used as the diameter. `select('ha', ...)` compares lst - obsra without bringing it into one turn, so that records near sidereal time zero are missed.
* plot_uv.py (C134): baselines with missing records are shifted against the time axis; -t with -x divides the number of an integration twice; -t is compared with Julian dates on the axis of sidereal times; -a is searched as text, so that 2_11 conjugates (1, 2); --dt and --df give the negative of the remainder and keep the axis of all times; rows after a gap are misplaced; the delay bins of an odd number of channels are off by one half; the test for contiguous channels compares their number with GHz. Its description says that -c and -t select delays and fringe rates with -d and -f; they select channels and times. With Python 3 the script stops at the first record (`has_key`).
* plot_map.py (C135), with its own Basemap: the top row shows the opposite pole; labels and clicks are mirrored in galactic and ecliptic coordinates (the pixels are taken at negative longitudes, the labels are not); equatorial labels are not precessed to --oepoch; a click reads the map without converting to --isys, and raises for maps with spectral indices; one source alone raises (`squeeze` leaves no sequence); --src_mark calls a method `plot` that the class lacks.
* rfi_diagnostic.py (C136): of several polarisations at one time only the last is counted; a file whose name ends in r or R changes the strategy for all later files; `simple` takes the median of the second time differences over channels, so a burst in all channels is not seen, and counts first and last channels and times; `naive` uses the data of the last record read for every baseline, `normal` its antenna numbers; `-m` compares complex numbers, so that real parts are shown, and with `-l` nothing below one; the frequency axis ends one channel too late; the redshifts are those of a line at 1427.1 MHz; `-x chan` raises NameError; the number of panels is rounded down, so that five baselines raise. `--gom` is text compared with integers and excludes nothing. `has_key` and `sort(cmp=)` do not exist in Python 3.
* plot_img.py (C137): if the axes before `ra` include a frequency or polarisation axis the transposition raises; from_fits gives the axes of a standard FITS cube in the order of the header while the array has them reversed, so channel numbers are taken as columns; without files the number of panels divides by zero; columns are counted with the number of rows, wrong for images that are not square; positions printed are mirrored if d_ra is negative, as in files of to_fits; pixel numbers are floats, which current numpy refuses as indices; in log mode a negative pixel prints its amplitude.
* miriad_wrap.cpp, dsp.c (C138): `_wrvr`, `raw_write` and `grid2D_c` read arrays that are not contiguous as if they were; the test of the type of the flags in raw_write refuses nothing where `long` has 64 bits.
* bug.c 116-117 with hio.c 322-383 (C139): the first `RuntimeError` of a process (and every second after it) first runs `habort_c`:
  all open data sets are shut without flushing, those being made are deleted, and their `UV` objects are left dangling, so that
  using or deleting them dereferences freed places; reopening a file after a caught error can give the old object's number to the new.
* hio.c 1497-1499 (C139): the counter of open data sets goes up before the table is found full and never comes down again.
* hio.c 1500 (C139): the hash adds signed bytes; a non-ASCII name can index before the table.
* pull_ants.py 39 (C140): `opts.refant` does not exist; the script stops after making its first output, which stays empty, and line 33
  compares antenna numbers with strings.
* stokes_rotate.py 41 (C141): `a.pol.xy2stokes` does not exist; pol.py 31-34: an unknown polarisation is printed and ignored.
* inspect_phs_close.py 60 slices with a float and 89 asks for an option that does not exist (not modelled further: nothing is computed).
* phs.py 105-114 (C142): `object.__getattr__` does not exist and `object.__setattr__` never fails, so reading always ends at the body and
  setting never reaches it; an instance without `Body` recurses, so moving sources can be neither copied nor unpickled.
* amp.py 68 (C143): `self.afreqs[0]` outside the try; `str` of a source that has not been computed raises.
* miriad.py 335-342 (C144): a baseline missing from one integration shifts its rows against `info['times']`; `info['freqs']` is that of the
  last file even if the files are tuned differently.
* pull_ants.py reads `opts.refant` and inspect_phs_close.py `opts.fixdelay`; neither is declared, so those lines raise AttributeError
  (C145, `c145_reads_violated`; `--fixant` of the latter is never read).
* dsp.c 8-12 (C146): `footprint` is a `long` read with the format of an `int`, so a negative number becomes one near 2^32 (and on machines with
  the high bytes first every number would be wrong); a buffer of length zero gives a division by zero.
* aipy_compat.h 13-32 (C147): `PyString_Size` counts characters, the text handed over is UTF-8: texts with letters outside ASCII are cut off, or
  raise UnicodeDecodeError when read (`c147_lost_violated`, `c147_half_violated`).  `PyString_AsString` returns a pointer into an object it has just
  released; the model takes the bytes to be still there.
* img.py (C148): a source on the edge of the image vanishes entirely from samples half-way between two columns of the uv matrix; further in
  it is lowered by a factor the code does not divide out (C76).
* `sim_cache` (C84): the tuples `ionrefs` and `srcshapes` may mix numbers and arrays only if no array follows a number.
  `ionrefs=(number, array)` makes every `sim` raise once some sources are below the horizon (`c84_mixed_ion_violated`), and
  `srcshapes=(number, array, number)` with as many channels as sources silently uses the size of source j for channel j of all
  sources (`c84_mixed_shape_violated`).
* `UV.write` (C149) cannot write a masked array without a mask: it calls `data.unmask()`, which does not exist
  (`c149_nomask_violated`).
* uvlist.py (C150) lists variables that it cannot print: the object has the values of the first record, and a variable that gets
  its first value later raises in `_rdvr`; the script ends there, without the other keywords and files.
* `deconv.clean` (C151) has checks for one and two axes only: cubes are accepted when no model is given (with one they are refused), and
  the first plane is cleaned, the others being returned unchanged.  With a model and an area an image that can be broadcast is accepted.  A
  kernel that is zero everywhere inside the area gives NaN, and without `stop_if_div` an endless loop.  Areas are cut off to integers.
* `deconv.lsq` (C152) only approaches a model for kernels whose Fourier components all have positive real part; a kernel whose peak is
  not at the origin makes the model grow without end (`c152_offcentre_violated`). With the default `gain` and `tol` it does not end by
  `tol` on the kernels for which the docstring says that it is made (`c152_never`).
* `UV.init_from_uv` (C153) discards the declarations that `add_var` made before it (`c153_forget_violated`); a file opened to append does
  not know its own variables (`c153_append_violated`); `override` is silent about names that the source does not have (`c153_override`).
* helm.py 23, 38 (C154): the default of `prm_list` is `None` and the loop runs over it, so `get_params()` raises TypeError.
* fit.py 47-49 (C154): an empty index list is read back as the next number of the vector, which is the flux.
* uvio.c 1171, headio.c 398-460 (C155): the history of uvio.c says that `uv_override` can convert between numeric types, but `rdhdi_c` is
  fatal for items that are not integers, so that the file cannot be opened; string items of 128 characters overflow `descr` in the same
  place, also where the variable is not a string.
* uvio.c 911-916 (C155): `obstype` is an item of every file with data, so a variable of that name cannot be read.
* xrfi.py (C100): the default `--flagmode both` raises on every file (`np.histogram` with a float for the number of bins, `keys().sort()`), and so
  does `--share` (`0 | mask[pol][bl]` takes the dictionary instead of `mask[pol][bl][t]`); records of the same polarisation, antennas and time all
  get the flags of the last one; a time that is not a number is a KeyError.
* modmap.py (C93): coordinates precessed to `oepoch` are multiplied by `convert_m('eq', osys, oepoch=oepoch)`, which precesses them from J2000
  again (`c93_epoch_violated`); `ras`, `decs` are longitudes and latitudes of the map's own system but are compared with equatorial coordinates
  (`c93_system_violated`); `ras - ra` is not wrapped (`c93_wrap_violated`).
* coord.convert_m (C92): the NOTE in the docstring is wrong (`c92_note_violated`).
* filter_src.py -d -1 (C91): on baselines shorter than a third of a bin of delay (1/(3·bandwidth)) the slice ends at 0 and is empty, so nothing is taken out (`c91_short_violated`);
  `aa.get_phs_offset(i,j)[-2:]` takes the offsets of the last two *channels* for a delay and a phase, so cables misplace the window
  (`c91_offset_violated`); with a source the table is not made and the script raises a NameError (`c91_with_source_raises`).

## Growth

Additions after the first list: C58-C69 (gridding and degridding, w-plane cache, derived state of arrays, maps of another
resolution, weights after reset, best-so-far CLEAN, pos_def, lsq, interpolation, delay, changing antennas), the model of
whole data sets (`Tree`), the UV record stream with flags and visibilities, copying of data sets end to end, header items;
C70-C74 (appending, obstype, pointing, beams, shared catalogs); C75-C78 (images, w projection, simulated sources); C79, C80
(reading and copying with a selection); C81, C82 (the record stream on the item layer and in a directory); C83 (uv_addsub.py); C84-C86
(the arrays of the simulation, mdlvis.py, apply_cal.py); C87 (copies from directory to directory); C88 (parallactic
angle); C89 (phs2src.py); C90 (filter_src.py); C91 (its sky-pass window); C92 (convert_m); C93
(modmap.py); C94, C95 (maximum entropy); C96 (parse_srcs); C97
(word_wrap); C98 (polarisations); C99 (pull_pol.py); C100 (xrfi.py); C101 (uv[name]); C102 (remove_spikes);
C103 (mk_img.py);
C104 (mk_map.py); C105-C108 (catalog files); C109, C110 (xtalk3.py); C111-C115 (combine_freqs.py, apply_bp.py, cal.py, flux_cal.py, amp_close.py); C116-C118 (BeamAlm, FITS images and maps); C119-C121 (Gaussian beams, interpolation, points on the sphere); C122 (srclist.py); C123 (compress_uv.py); C124-C126 (fitmdl.py); C127, C128 (cl_img.py, twodgauss.py); C129 (find_delay.py); C130 (xrfi_simple.py); C131, C132 (amplitude and window selections); C133 (the kinds of selections); C134 (plot_uv.py); C135 (plot_map.py); C136 (rfi_diagnostic.py); C137 (plot_img.py); C138 (views of arrays in the compiled functions);
C139 (data sets open together and what an error does to them);
C140 and C141 (pull_ants.py, stokes_rotate.py, pol.UV); C142 and C143 (attributes of moving sources, the text of a fixed source); C144 (rows, times and
frequencies of read_files); C145 (command lines of the scripts);
C146 (the sum of gridded data); C147 (text in variables);
C148 (images of samples between the points of the grid); C149 (the arguments of `UV.write`); C150 (uvlist.py); C151 (the arguments of
`deconv.clean`); C152 (what the passes of `deconv.lsq` do);
C153 (where `uv[name] = value` goes); C154 (fitting Helmboldt sources); C155 (items that
replace variables).

## Axioms

Output of `#print axioms` for the theorems of MANIFEST.json, grouped.

* none (13): c02_limit_sharp c02_collision c45_end_of_file c45_split_element_lost c50_zero c55_unknown_violated c114_names c118_healpix_clobber c122_prms_violated c124_daemon_violated c138_flags_accepted_violated c142_copy_violated c143_before_violated

* `propext` (52): c03_float_limit c05_zero_stride_raises c07_descending_record_violated c07_exclude_with_feed_violated c07_dazim_ignored_violated c09_vector_complete c09_singleton_violated c09_empty_violated c10_slices_tile c22_permutation c22_docstring_violated c23_letters c27_rejected_unchanged_partial c27_accepted_only c27_bad_index_violated c45_small_gap_misplaced c45_empty_write_erases c45_far_write_erases c46_empty_item_lost c47_string_grows c47_int_array c47_short_array c50_first_time c51_no_history c52_undecimated c53_empty_text_lost c53_integers_cut c53_non_ascii c53_int_for_double c55_lookup c55_all_violated c60_antenna_violated c60_bad_channel_violated c70_empty_fails c71_mixed_lost c71_assigned_lost c82_blank_lost c101_blank_violated c106_calls_partial c106_shared_violated c122_list c125_phase_violated c125_same_time_violated c132_place_violated c140_kept_partial c141_round c141_unknown_violated c145_dashes c149_none c149_nomask_violated c149_array c153_init

* `Quot.sound`, `propext` (110): c01_roundtrip c01_symmetric c01_reencode c03_agrees_with_python c03_select_decoder_agrees c04_pol_tables_inverse c04_blp_roundtrip c04_pol_codes_packable c06_feed_order_ascending c13_counts c22_total c22_element c22_compose c22_undo c22_moves c23_words_kept c23_no_break c23_join c23_narrow_violated c26_long_index_violated c31_from_hpm_partial c32_in_range c32_new c35_other_weight c42_32 c42_32_back c42_64 c42_64_back c42_16 c42_16_back c42_32_big_endian c42_64_big_endian c42_16_big_endian c47_rewind_stale c47_complex c48_first_time_lost c48_preamble_lost c50_phases c51_late_variable c51_int_array c51_fewer_channels c51_time_changed c51_exclude_again c52_single_name c55_get_srcs c57_totals c57_factor_zero c60_fresh_partial c60_select_repairs c60_selection c61_source_modified_violated c62_float_partial c62_add_after_reset_violated c70_mode_ignored c75_centre c79_clear_fails c79_reselect_fails c80_no_silent_stop c97_wrap c97_indent_violated c97_narrow_violated c103_single_violated c105_mrt_violated c106_missing_violated c111_raises_violated c111_same c111_unify_violated c112_names c113_freqs c114_beam_violated c114_below_violated c114_nosrc c117_find_axis_violated c118_clobber c118_nested_violated c122_moving_violated c122_sep_violated c126_start c126_order_violated c126_shown_violated c132_or_violated c134_order_partial c137_batch c138_column_violated c140_pull_violated c140_mfunc_violated c141_rotate_violated c142_get c142_set_get c143_columns c143_injective c143_guard_unused c144_freqs_partial c144_tuning_violated c145_ambiguous c145_abbreviation c147_ascii c147_one c147_lost_violated c147_half_violated c147_exactly c149_stores c149_only c149_copy c151_rejects c151_cube c153_one_type c153_override c155_numeric c155_untouched

* `Classical.choice`, `Quot.sound`, `propext` (725): all others.
