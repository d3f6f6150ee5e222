[
[
1,
12,
"Note, Freq",
"case analysis on branches, linear arithmetic on ℚ, induction over setter histories; false parts by counterexample"
],
[
13,
14,
"Signature",
"algebra on ℚ, case analysis of the checks"
],
[
15,
15,
"Instrument",
"evaluation of the whole finite table, lifted to all numbers"
],
[
16,
18,
"Events",
"case analysis; induction over setter histories"
],
[
19,
31,
"Seq",
"induction over operation histories, list lemmas (permutations, filters, folds)"
],
[
32,
33,
"Sequences",
"invariants over histories of track operations"
],
[
34,
35,
"Sequences",
"invariant of the bisect insertion, loop invariant of the lookup"
],
[
36,
37,
"Sequences",
"induction over the imported list / the tracks"
],
[
38,
39,
"SortedDict",
"refinement to a finite map"
],
[
40,
40,
"SortedDict",
"set semantics on ℤ"
],
[
41,
44,
"FloatTree",
"representation invariant of set, boundary table and AVL tree, induction over histories and trees"
],
[
45,
54,
"Graph",
"folds with invariants, dictionary lemmas"
],
[
55,
55,
"PrettyMidi",
"induction on the track"
],
[
56,
57,
"PrettyMidi",
"tick table = closed form; binary search invariant"
],
[
58,
58,
"PrettyMidi",
"simulation of the loading loop by a declarative pairing of note-ons and note-offs"
],
[
59,
60,
"PrettyMidi",
"comparator is a strict weak order on classes; fold invariant"
],
[
61,
62,
"Reader",
"induction over instruments and events; finite table"
],
[
63,
64,
"Dataset",
"invariants of add/merge trees; list lemmas"
],
[
65,
65,
"Dataset",
"state machine with a crash after any prefix of the effects"
],
[
66,
66,
"Shared",
"histories of saves and loads; decimal text round trip"
],
[
67,
67,
"Transforms",
"list lemmas on edge lists"
],
[
68,
71,
"Scales",
"finite tables lifted by lemma; modular arithmetic"
],
[
72,
74,
"Utils",
"ℚ arithmetic, floor/round lemmas"
],
[
75,
75,
"OneHot",
"list lemmas"
],
[
76,
76,
"Transforms",
"sublist lemmas"
],
[
77,
78,
"Signature",
"algebra; order axioms"
],
[
79,
79,
"Events",
"whole finite table"
],
[
80,
80,
"Seq",
"list lemmas"
],
[
81,
81,
"SortedDict",
"refinement to a finite map"
],
[
82,
83,
"Sequences",
"invariants over histories"
],
[
84,
90,
"Graph",
"folds with invariants; refutations for all inputs"
],
[
91,
94,
"FloatTree",
"AVL height invariant; order lemmas; set algebra"
],
[
95,
98,
"PrettyMidi",
"composition of serialize and load: each stage has an exact description, then permutations of events"
],
[
99,
102,
"PrettyMidi, Reader",
"exact lists; end to end composition of C56, C58, C60, C61"
],
[
103,
106,
"Dataset",
"case analysis; injectivity of file names; induction over raw files"
],
[
107,
108,
"Shared",
"histories with interrupted saves"
],
[
109,
109,
"Transforms",
"counting lemma"
],
[
110,
116,
"Seq, Note, Events, Sequences, Dataset, Graph",
"case analysis and list lemmas"
],
[
117,
119,
"Heap",
"frame lemmas for every heap operation, induction over arbitrary client programs, refinement to Seq"
],
[
120,
122,
"Times",
"monotonicity of interpolation; induction on the event lists"
],
[
123,
124,
"Beats",
"loop invariant of the beat walk; termination bound; exact strides"
],
[
125,
126,
"Adjust, Times",
"induction over the zones: the new tempi describe the moved tick lengths, then induction over the scale loop"
],
[
127,
127,
"Writer, Reader, Adjust",
"inversion of the run (each step of a successful run must succeed); the track loop by induction with the invariant that every indexed track is empty"
],
[
128,
128,
"Writer, Times, Adjust",
"inversion of the run, then C120 on the two-point map; stable sorting commutes with filtering for the events"
],
[
129,
129,
"Writer, Adjust",
"induction over the tempo list: the time table is always [0], so only the last entry counts"
],
[
130,
130,
"Writer, Adjust, Beats",
"termination of the beat walk (C123, C124) and totality of every step, then C128; stable sorting and `in force` lemmas for the signatures"
],
[
131,
131,
"Reader, Writer",
"composition of C61, C62, C100, C101 with C128 and C130"
],
[
132,
133,
"FloatTree, FloatTree2",
"induction over histories with the tree invariant (C41–C44): which intervals are stored and whether nodes are left"
],
[
134,
134,
"Traverse",
"loop invariant of the queue (visited nodes closed, queue holds walk lengths), induction over walks"
],
[
135,
135,
"Analysis",
"finite sums, induction over the list of instruments and over suffixes of a melody"
],
[
136,
138,
"Graph, GraphExtra",
"invariants of the build loop (C45–C54), induction over histories of builds"
],
[
139,
141,
"Trainers",
"case analysis; counting over classes; induction over the epochs"
],
[
142,
143,
"NoteExtra",
"arithmetic of floor and logarithm-free frequency bounds; structural induction over documents"
],
[
144,
144,
"PrettyMidi",
"simulation of the reader over the merged written track: each voice of an instrument is a subsequence of the file"
],
[
145,
145,
"Save",
"C144 composed with C61 and C102: a written file satisfies the reader's conditions, its notes end in order"
],
[
146,
147,
"SeqExtra",
"memo tables: a remembered entry is kept by every later step; track tables: the invariant of C32 kept by set_sequence too"
],
[
148,
149,
"Pipeline",
"the log of all chords met: an invariant of the loop over files ties the builder's tables to the order of first appearance in the log; labels of earlier graphs stay right because the log only grows at its end"
],
[
150,
152,
"RawFiles",
"induction over the list of files with the disk generalised; for C152 the state of object 0 after any history is computed by a fold over the accesses to it"
],
[
153,
155,
"Float64, FloatOps, FloatClockProps",
"a rounding function on the rationals with its error bound, monotonicity and fixed points; relative errors counted in roundings; for the tick table induction over the tempo map with the float time of its start generalised"
],
[
156,
156,
"FloatSave, FloatSaveProps",
"error of the four roundings between reading and writing a tempo below one microsecond; induction over the tempo map and over the rounds; the sum of the tempi as measure for the end of the drift; closed runs for the defects"
],
[
157,
157,
"BeatStart, BeatStartProps",
"the dot product of the two signals as a sum over notes, windows as intervals of milliseconds, induction over candidates for the largest score"
],
[
158,
158,
"FloatGrid, FloatGridProps",
"Kahan's theorem on division by a sum of two powers of two, by scaling to 53 bits and counting multiples of the last place; closed runs for the defect"
],
[
159,
159,
"TreeScore, TreeScoreProps",
"count of nodes and of intervals in nodes along a history, by induction on the history; closed runs for the defects"
],
[
160,
160,
"FloatFile, FloatFileProps, FloatFileProps2, FloatFileProps3",
"naturality of loading and writing in the times (both objects are images of one object in ticks), then the round trip of C155 on every tick of the table"
],
[
161,
161,
"FloatShift, FloatShiftProps",
"error of one rounding (b64_err), monotonicity of rounding, exactness on a grid; induction on the number of shifts; closed runs for the defects"
],
[
162,
162,
"FloatVelocity, FloatVelocityProps",
"the exact result is further from the next whole number (or half) than all rounding errors together; closed run for the defect"
],
[
163,
163,
"EventOrder, EventOrderProps",
"case analysis over closeness of times; strict weak order on lists of distinguishable times; the whole controller table by computation in the kernel"
],
[
164,
164,
"IntervalDict, IntervalDictProps",
"invariant of the sorted dictionary kept by every call; simulation of the map that sees only assignments, by induction on the history"
],
[
165,
165,
"BadFileProps, BadFileFloatProps",
"induction over the tempo events, the deltas and the signatures"
],
[
166,
166,
"HashOrder, HashOrderProps",
"the hash of a float whose binary places end before the 61st is its integer part plus its places; the places of s + c/100 depend on c and on the number of digits of s only; a table over 100 x 32 cases excludes collisions; visiting order from sorting, the bound 99 by induction over a sorted list"
],
[
167,
169,
"Gcn, GcnProps",
"functions on finite types over an ordered field; sums over the edge list; equivariance, batches and isolated nodes from one lemma on embeddings that keep the incoming edges, by induction over the layers; locality by induction over layers and walks; caching by induction over the calls"
],
[
170,
170,
"Gin, GinProps",
"the same lemma on embeddings; the scatter loop by induction"
],
[
171,
171,
"EndToEnd, EndToEndProps",
"composition of the loading, reading and processing theorems: notes of each part by the invariants of the loader in both directions; chords of a part from the partition and splitting theorems; the list of graphs by induction over the files"
],
[
172,
172,
"SongLoop, SongLoopProps",
"termination by a measure (unknown numbers plus numbers still ahead); the visits by invariants of the table for each kind of history, one round at a time"
],
[
173,
174,
"FeatureProps",
"stability of the sort by filtering on equal keys; the invariant of the builder loop combined with the partition, splitting and rescaling theorems"
],
[
175,
177,
"GcnNets, GcnNetsProps",
"closed formula of a layer, then congruence of the formula along embeddings, neighbourhoods and twins; monotonicity of the sigmoid; 1+t ≤ exp t"
],
[
178,
178,
"GatLstm, GatProps",
"closed formula of an attention layer as a weighted mean; congruence as for C175"
],
[
179,
181,
"GatLstm, LstmProps",
"induction over the sequence and over the layers; the state after k rounds is the state after reading the input k times"
],
[
182,
182,
"GatLstm, TallyProps",
"fold invariant for the tallies; counting by disjoint predicates"
],
[
183,
184,
"GaeRuns, GaeRunsProps",
"fold of the epochs as a run over (weights, directory); the newest checkpoint as invariant over histories"
],
[
185,
185,
"IvOrder, IvOrderProps",
"case analysis on the kinds of data; the comparison as a lexicographic order on (begin, end, class, value)"
],
[
186,
186,
"NoteNames, NoteNamesProps",
"grammar of names as a separate relation; the tokenizer accepts exactly its texts"
],
[
187,
187,
"TempoTwo, TempoTwoProps",
"closed form of the comprehension as a filter of the tempo events; last elements of filters"
],
[
188,
188,
"EdgeCheck, EdgeCheckProps",
"closed form of the chain of assertions; counting over three masks"
],
[
189,
189,
"FromFile, FromFileProps",
"last dot and last slash of a list of characters; composition with the constructor of C137"
],
[
190,
191,
"DataCheck, DataCheckProps",
"sorted lists are equal exactly for permutations; tables only grow under builds (C49); cardinality of unions"
],
[
192,
192,
"FloatTol, FloatTolProps",
"monotone rounding keeps the interpolation between its ends; the exact interpolation is Lipschitz; error propagation"
],
[
193,
193,
"GraphGen, GraphGenProps",
"invariants of single actions over lists of actions; the builder's tables only grow"
],
[
194,
194,
"SelfCheck, SelfCheckProps",
"induction over the raw files; the state after skipped files is the initial one; first build by the invariants of C138 and C148"
],
[
195,
195,
"OptionFreeProps",
"the dictionaries are a fold over the chords met; assigning a list of entries twice is assigning it once; simulation of two builders step by step"
],
[
196,
197,
"VelScale, VelScaleProps",
"bounds of min and max by induction; relative error of each float operation, the quotient of two small integers stays 1/127 away from the next whole number; monotone rounding"
],
[
198,
199,
"PlotScript, PlotScriptProps",
"invariant of the graph while chords are linked: hash label, first node and not entered go together; loop of the first node; both kinds of builds by induction over the tracks"
],
[
200,
200,
"FloatUtils, FloatUtilsProps",
"monotone rounding (whole numbers up to 2^53 are fixed points); relative error of each operation; scaling by powers of two commutes with rounding; division and multiplication by 2^i + 2^j"
],
[
201,
202,
"Example01, Example01Props",
"invariant of the accumulators over batches and splits (the masked nodes so far); F1 of a label is 1 iff its counts agree; no branch of the inner loop returns; induction over epochs and over calls"
],
[
203,
204,
"Example02, Example02Props",
"the loop is a sum over the batches; induction over the epochs with the best epoch so far as ghost variable"
],
[
205,
206,
"TopkPool, TopkPoolProps",
"reals; the threshold is compared with the greatest score; the attention loss is bounded by log x ≤ x - 1; the loss by the decomposition of squares around the mean"
],
[
207,
207,
"MetricPlot, MetricPlotProps",
"the drawing is put in closed form; an invariant over the history says that the validation lists have one length"
],
[
208,
209,
"NewSeqs, NewSeqsProps",
"lookups after an assignment in the sorted dictionary; induction over the calls; the average tempo by cases"
]
]