import Verif.Model.Prim
set_option autoImplicit false
/-!
# Names of primitives

Generated by `tools/gen_prims.py` from the match arms of `handle_primitive`, primitives.rs 136-1961.
Arms are in the order of the source. Line numbers of the arms are given in comments.
-/
namespace PL

def primTable0 : List (Str × Prim) := [
  (c!"arccos", .func c!"arccos"), -- 137
  (c!"cos", .func c!"cos"), -- 137
  (c!"csc", .func c!"csc"), -- 137
  (c!"exp", .func c!"exp"), -- 137
  (c!"ker", .func c!"ker"), -- 137
  (c!"sinh", .func c!"sinh"), -- 137
  (c!"arcsin", .func c!"arcsin"), -- 137
  (c!"cosh", .func c!"cosh"), -- 137
  (c!"deg", .func c!"deg"), -- 137
  (c!"lg", .func c!"lg"), -- 137
  (c!"ln", .func c!"ln"), -- 137
  (c!"arctan", .func c!"arctan"), -- 137
  (c!"cot", .func c!"cot"), -- 137
  (c!"det", .func c!"det"), -- 137
  (c!"hom", .func c!"hom"), -- 137
  (c!"log", .func c!"log"), -- 137
  (c!"sec", .func c!"sec"), -- 137
  (c!"tan", .func c!"tan"), -- 137
  (c!"arg", .func c!"arg"), -- 137
  (c!"coth", .func c!"coth"), -- 137
  (c!"dim", .func c!"dim"), -- 137
  (c!"sin", .func c!"sin"), -- 137
  (c!"tanh", .func c!"tanh"), -- 137
  (c!"sgn", .func c!"sgn"), -- 137
  (c!"lim", .funcMov c!"lim"), -- 140
  (c!"Pr", .funcMov c!"Pr"), -- 140
  (c!"sup", .funcMov c!"sup"), -- 140
  (c!"max", .funcMov c!"max"), -- 140
  (c!"inf", .funcMov c!"inf"), -- 140
  (c!"gcd", .funcMov c!"gcd"), -- 140
  (c!"min", .funcMov c!"min"), -- 140
  (c!"liminf", .funcMov c!"lim inf"), -- 145
  (c!"limsup", .funcMov c!"lim sup"), -- 150
  (c!"operatorname", .operatorname), -- 156
  (c!"bmod", .func c!"mod"), -- 169
  (c!"pmod", .pmod), -- 170
  (c!"mathord", .atom .ord), -- 205
  (c!"mathop", .atom .op), -- 206
  (c!"mathbin", .atom .bin), -- 211
  (c!"mathrel", .atom .rel), -- 212
  (c!"mathopen", .atom .open_), -- 213
  (c!"mathclose", .atom .close), -- 214
  (c!"mathpunct", .atom .punct), -- 215
  (c!"mathinner", .atom .inner), -- 216
  (c!"alpha", .ord 'α'), -- 222
  (c!"beta", .ord 'β'), -- 223
  (c!"gamma", .ord 'γ'), -- 224
  (c!"delta", .ord 'δ'), -- 225
  (c!"epsilon", .ord 'ϵ'), -- 226
  (c!"zeta", .ord 'ζ'), -- 227
  (c!"eta", .ord 'η'), -- 228
  (c!"theta", .ord 'θ'), -- 229
  (c!"iota", .ord 'ι'), -- 230
  (c!"kappa", .ord 'κ'), -- 231
  (c!"lambda", .ord 'λ'), -- 232
  (c!"mu", .ord 'µ'), -- 233
  (c!"nu", .ord 'ν'), -- 234
  (c!"xi", .ord 'ξ'), -- 235
  (c!"pi", .ord 'π'), -- 236
  (c!"rho", .ord 'ρ'), -- 237
  (c!"sigma", .ord 'σ'), -- 238
  (c!"tau", .ord 'τ'), -- 239
  (c!"upsilon", .ord 'υ'), -- 240
  (c!"phi", .ord 'ϕ'), -- 241
  (c!"chi", .ord 'χ'), -- 242
  (c!"psi", .ord 'ψ'), -- 243
  (c!"omega", .ord 'ω'), -- 244
  (c!"omicron", .ord 'ο'), -- 245
  (c!"Alpha", .ord 'Α'), -- 247
  (c!"Beta", .ord 'Β'), -- 248
  (c!"Gamma", .ord 'Γ'), -- 249
  (c!"Delta", .ord 'Δ'), -- 250
  (c!"Epsilon", .ord 'Ε'), -- 251
  (c!"Zeta", .ord 'Ζ'), -- 252
  (c!"Eta", .ord 'Η'), -- 253
  (c!"Theta", .ord 'Θ'), -- 254
  (c!"Iota", .ord 'Ι'), -- 255
  (c!"Kappa", .ord 'Κ'), -- 256
  (c!"Lambda", .ord 'Λ'), -- 257
  (c!"Mu", .ord 'Μ'), -- 258
  (c!"Nu", .ord 'Ν'), -- 259
  (c!"Xi", .ord 'Ξ'), -- 260
  (c!"Pi", .ord 'Π'), -- 261
  (c!"Rho", .ord 'Ρ'), -- 262
  (c!"Sigma", .ord 'Σ'), -- 263
  (c!"Tau", .ord 'Τ'), -- 264
  (c!"Upsilon", .ord 'Υ'), -- 265
  (c!"Phi", .ord 'Φ'), -- 266
  (c!"Chi", .ord 'Χ'), -- 267
  (c!"Psi", .ord 'Ψ'), -- 268
  (c!"Omega", .ord 'Ω'), -- 269
  (c!"Omicron", .ord 'Ο'), -- 270
  (c!"varepsilon", .ord 'ε'), -- 272
  (c!"vartheta", .ord 'ϑ'), -- 273
  (c!"varkappa", .ord 'ϰ'), -- 274
  (c!"varrho", .ord 'ϱ'), -- 275
  (c!"varsigma", .ord 'ς'), -- 276
  (c!"varpi", .ord 'ϖ'), -- 277
  (c!"varphi", .ord 'φ'), -- 278
  (c!"varGamma", .ord (Char.ofNat 0x1d6e4))] -- 280

def primTable1 : List (Str × Prim) := [
  (c!"varDelta", .ord (Char.ofNat 0x1d6e5)), -- 281
  (c!"varTheta", .ord (Char.ofNat 0x1d6e9)), -- 282
  (c!"varLambda", .ord (Char.ofNat 0x1d6ec)), -- 283
  (c!"varXi", .ord (Char.ofNat 0x1d6ef)), -- 284
  (c!"varPi", .ord (Char.ofNat 0x1d6f1)), -- 285
  (c!"varSigma", .ord (Char.ofNat 0x1d6f4)), -- 286
  (c!"varUpsilon", .ord (Char.ofNat 0x1d6f6)), -- 287
  (c!"varPhi", .ord (Char.ofNat 0x1d6f7)), -- 288
  (c!"varPsi", .ord (Char.ofNat 0x1d6f9)), -- 289
  (c!"varOmega", .ord (Char.ofNat 0x1d6fa)), -- 290
  (c!"aleph", .ord 'ℵ'), -- 293
  (c!"beth", .ord 'ℶ'), -- 294
  (c!"gimel", .ord 'ℷ'), -- 295
  (c!"daleth", .ord 'ℸ'), -- 296
  (c!"digamma", .ord 'ϝ'), -- 298
  (c!"eth", .ord 'ð'), -- 299
  (c!"ell", .ord 'ℓ'), -- 300
  (c!"nabla", .ord '∇'), -- 301
  (c!"partial", .ord '∂'), -- 302
  (c!"Finv", .ord 'Ⅎ'), -- 303
  (c!"Game", .ord 'ℷ'), -- 304
  (c!"hbar", .ord 'ℏ'), -- 305
  (c!"hslash", .ord 'ℏ'), -- 305
  (c!"imath", .ord 'ı'), -- 306
  (c!"jmath", .ord 'ȷ'), -- 307
  (c!"Im", .ord 'ℑ'), -- 308
  (c!"Re", .ord 'ℜ'), -- 309
  (c!"wp", .ord '℘'), -- 310
  (c!"Bbbk", .ord (Char.ofNat 0x1d55c)), -- 311
  (c!"Angstrom", .ord 'Å'), -- 312
  (c!"backepsilon", .ord '϶'), -- 313
  (c!"dots", .dots), -- 318
  (c!"ldots", .ord '…'), -- 325
  (c!"dotso", .ord '…'), -- 325
  (c!"dotsc", .ord '…'), -- 325
  (c!"cdots", .ord '⋯'), -- 326
  (c!"dotsi", .ord '⋯'), -- 326
  (c!"dotsm", .ord '⋯'), -- 326
  (c!"dotsb", .ord '⋯'), -- 326
  (c!"idotsin", .ord '⋯'), -- 326
  (c!"ddots", .ord '⋱'), -- 327
  (c!"iddots", .ord '⋰'), -- 328
  (c!"vdots", .ord '⋮'), -- 329
  (c!"mathellipsis", .ord '…'), -- 330
  (c!"infty", .ord '∞'), -- 331
  (c!"checkmark", .ord '✓'), -- 332
  (c!"ballotx", .ord '✗'), -- 333
  (c!"dagger", .ord '†'), -- 334
  (c!"dag", .ord '†'), -- 334
  (c!"ddagger", .ord '‡'), -- 335
  (c!"ddag", .ord '‡'), -- 335
  (c!"angle", .ord '∠'), -- 336
  (c!"measuredangle", .ord '∡'), -- 337
  (c!"lq", .ord '‘'), -- 338
  (c!"Box", .ord '□'), -- 339
  (c!"sphericalangle", .ord '∢'), -- 340
  (c!"square", .ord '□'), -- 341
  (c!"top", .ord '⊤'), -- 342
  (c!"rq", .ord '′'), -- 343
  (c!"blacksquare", .ord '■'), -- 344
  (c!"bot", .ord '⊥'), -- 345
  (c!"triangledown", .ord '▽'), -- 346
  (c!"Bot", .ord '⫫'), -- 347
  (c!"triangleleft", .ord '◃'), -- 348
  (c!"triangleright", .ord '▹'), -- 349
  (c!"cent", .ord '¢'), -- 350
  (c!"colon", .ord ':'), -- 351
  (c!"ratio", .ord ':'), -- 351
  (c!"vcentcolon", .ord ':'), -- 351
  (c!"bigtriangledown", .ord '▽'), -- 352
  (c!"pounds", .ord '£'), -- 353
  (c!"mathsterling", .ord '£'), -- 353
  (c!"bigtriangleup", .ord '△'), -- 354
  (c!"blacktriangle", .ord '▲'), -- 355
  (c!"blacktriangledown", .ord '▼'), -- 356
  (c!"yen", .ord '¥'), -- 357
  (c!"blacktriangleleft", .ord '◀'), -- 358
  (c!"euro", .ord '€'), -- 359
  (c!"blacktriangleright", .ord '▶'), -- 360
  (c!"Diamond", .ord '◊'), -- 361
  (c!"degree", .ord '°'), -- 362
  (c!"lozenge", .ord '◊'), -- 363
  (c!"blacklozenge", .ord '⧫'), -- 364
  (c!"mho", .ord '℧'), -- 365
  (c!"bigstar", .ord '★'), -- 366
  (c!"diagdown", .ord '╲'), -- 367
  (c!"maltese", .ord '✠'), -- 368
  (c!"diagup", .ord '╱'), -- 369
  (c!"P", .ord '¶'), -- 370
  (c!"clubsuit", .ord '♣'), -- 371
  (c!"varclubsuit", .ord '♧'), -- 372
  (c!"S", .ord '§'), -- 373
  (c!"diamondsuit", .ord '♢'), -- 374
  (c!"vardiamondsuit", .ord '♦'), -- 375
  (c!"copyright", .ord '©'), -- 376
  (c!"heartsuit", .ord '♡'), -- 377
  (c!"varheartsuit", .ord '♥'), -- 378
  (c!"circledR", .ord '®'), -- 379
  (c!"spadesuit", .ord '♠'), -- 380
  (c!"varspadesuit", .ord '♤')] -- 381

def primTable2 : List (Str × Prim) := [
  (c!"circledS", .ord 'Ⓢ'), -- 382
  (c!"female", .ord '♀'), -- 383
  (c!"male", .ord '♂'), -- 384
  (c!"astrosun", .ord '☉'), -- 385
  (c!"sun", .ord '☼'), -- 386
  (c!"leftmoon", .ord '☾'), -- 387
  (c!"rightmoon", .ord '☽'), -- 388
  (c!"smiley", .ord '☺'), -- 389
  (c!"Earth", .ord '⊕'), -- 390
  (c!"flat", .ord '♭'), -- 391
  (c!"standardstate", .ord '⦵'), -- 392
  (c!"natural", .ord '♮'), -- 393
  (c!"sharp", .ord '♯'), -- 394
  (c!"permil", .ord '‰'), -- 395
  (c!"QED", .ord '∎'), -- 396
  (c!"lightning", .ord '↯'), -- 397
  (c!"diameter", .ord '⌀'), -- 398
  (c!"leftouterjoin", .ord '⟕'), -- 399
  (c!"rightouterjoin", .ord '⟖'), -- 400
  (c!"concavediamond", .ord '⟡'), -- 401
  (c!"concavediamondtickleft", .ord '⟢'), -- 402
  (c!"concavediamondtickright", .ord '⟣'), -- 403
  (c!"fullouterjoin", .ord '⟗'), -- 404
  (c!"triangle", .ord '△'), -- 405
  (c!"vartriangle", .ord '△'), -- 405
  (c!"whitesquaretickleft", .ord '⟤'), -- 406
  (c!"whitesquaretickright", .ord '⟥'), -- 407
  (c!"bf", .fontChange .bold), -- 413
  (c!"cal", .fontChange .script), -- 414
  (c!"it", .fontChange .italic), -- 415
  (c!"rm", .fontChange .upRight), -- 416
  (c!"sf", .fontChange .sansSerif), -- 417
  (c!"tt", .fontChange .monospace), -- 418
  (c!"mathbf", .fontGroup (some .bold)), -- 423
  (c!"symbf", .fontGroup (some .bold)), -- 423
  (c!"mathbfup", .fontGroup (some .bold)), -- 423
  (c!"symbfup", .fontGroup (some .bold)), -- 423
  (c!"boldsymbol", .fontGroup (some .boldSymbol)), -- 426
  (c!"mathcal", .fontGroup (some .script)), -- 427
  (c!"symcal", .fontGroup (some .script)), -- 427
  (c!"mathit", .fontGroup (some .italic)), -- 428
  (c!"symit", .fontGroup (some .italic)), -- 428
  (c!"mathrm", .fontGroup (some .upRight)), -- 429
  (c!"symrm", .fontGroup (some .upRight)), -- 429
  (c!"mathup", .fontGroup (some .upRight)), -- 429
  (c!"symup", .fontGroup (some .upRight)), -- 429
  (c!"mathsf", .fontGroup (some .sansSerif)), -- 430
  (c!"symsf", .fontGroup (some .sansSerif)), -- 430
  (c!"mathsfup", .fontGroup (some .sansSerif)), -- 430
  (c!"symsfup", .fontGroup (some .sansSerif)), -- 430
  (c!"mathtt", .fontGroup (some .monospace)), -- 433
  (c!"symtt", .fontGroup (some .monospace)), -- 433
  (c!"mathbb", .fontGroup (some .doubleStruck)), -- 434
  (c!"symbb", .fontGroup (some .doubleStruck)), -- 434
  (c!"mathbbit", .fontGroup (some .doubleStruckItalic)), -- 435
  (c!"symbbit", .fontGroup (some .doubleStruckItalic)), -- 435
  (c!"mathfrak", .fontGroup (some .fraktur)), -- 436
  (c!"symfrak", .fontGroup (some .fraktur)), -- 436
  (c!"mathbfcal", .fontGroup (some .boldScript)), -- 437
  (c!"symbfcal", .fontGroup (some .boldScript)), -- 437
  (c!"mathsfit", .fontGroup (some .sansSerifItalic)), -- 438
  (c!"symsfit", .fontGroup (some .sansSerifItalic)), -- 438
  (c!"mathbfit", .fontGroup (some .boldItalic)), -- 439
  (c!"symbfit", .fontGroup (some .boldItalic)), -- 439
  (c!"mathbffrak", .fontGroup (some .boldFraktur)), -- 440
  (c!"symbffrak", .fontGroup (some .boldFraktur)), -- 440
  (c!"mathbfsfup", .fontGroup (some .boldSansSerif)), -- 441
  (c!"symbfsfup", .fontGroup (some .boldSansSerif)), -- 441
  (c!"mathbfsfit", .fontGroup (some .sansSerifBoldItalic)), -- 442
  (c!"symbfsfit", .fontGroup (some .sansSerifBoldItalic)), -- 442
  (c!"mathnormal", .fontGroup none), -- 443
  (c!"symnormal", .fontGroup none), -- 443
  (c!"displaystyle", .style .display), -- 448
  (c!"textstyle", .style .text), -- 449
  (c!"scriptstyle", .style .script), -- 450
  (c!"scriptscriptstyle", .style .scriptScript), -- 451
  (c!"color", .color), -- 456
  (c!"textcolor", .textcolor), -- 468
  (c!"colorbox", .colorbox), -- 487
  (c!"fcolorbox", .fcolorbox), -- 503
  (c!"big", .sized .big), -- 535
  (c!"bigl", .sized .big), -- 535
  (c!"bigr", .sized .big), -- 535
  (c!"bigm", .sized .big), -- 535
  (c!"Big", .sized .BIG), -- 536
  (c!"Bigl", .sized .BIG), -- 536
  (c!"Bigr", .sized .BIG), -- 536
  (c!"Bigm", .sized .BIG), -- 536
  (c!"bigg", .sized .bigg), -- 537
  (c!"biggl", .sized .bigg), -- 537
  (c!"biggr", .sized .bigg), -- 537
  (c!"biggm", .sized .bigg), -- 537
  (c!"Bigg", .sized .BIGG), -- 538
  (c!"Biggl", .sized .BIGG), -- 538
  (c!"Biggr", .sized .BIGG), -- 538
  (c!"Biggm", .sized .BIGG), -- 538
  (c!"left", .left), -- 540
  (c!"middle", .middle), -- 571
  (c!"right", .unbalanced), -- 579
  (c!"sum", .largeOp '∑' true)] -- 588

def primTable3 : List (Str × Prim) := [
  (c!"prod", .largeOp '∏' true), -- 589
  (c!"coprod", .largeOp '∐' true), -- 590
  (c!"bigvee", .largeOp '⋁' true), -- 591
  (c!"bigwedge", .largeOp '⋀' true), -- 592
  (c!"bigcup", .largeOp '⋃' true), -- 593
  (c!"bigcap", .largeOp '⋂' true), -- 594
  (c!"biguplus", .largeOp '⨄' true), -- 595
  (c!"bigoplus", .largeOp '⨁' true), -- 596
  (c!"bigotimes", .largeOp '⨂' true), -- 597
  (c!"bigodot", .largeOp '⨀' true), -- 598
  (c!"bigsqcup", .largeOp '⨆' true), -- 599
  (c!"bigsqcap", .largeOp '⨅' true), -- 600
  (c!"bigtimes", .largeOp '⨉' true), -- 601
  (c!"intop", .largeOp '∫' true), -- 602
  (c!"int", .largeOp '∫' false), -- 604
  (c!"iint", .largeOp '∬' false), -- 605
  (c!"iiint", .largeOp '∭' false), -- 606
  (c!"smallint", .smallint), -- 607
  (c!"iiiint", .largeOp '⨌' false), -- 614
  (c!"intcap", .largeOp '⨙' false), -- 615
  (c!"intcup", .largeOp '⨚' false), -- 616
  (c!"oint", .largeOp '∮' false), -- 617
  (c!"varointclockwise", .largeOp '∲' false), -- 618
  (c!"intclockwise", .largeOp '∱' false), -- 619
  (c!"oiint", .largeOp '∯' false), -- 620
  (c!"pointint", .largeOp '⨕' false), -- 621
  (c!"rppolint", .largeOp '⨒' false), -- 622
  (c!"scpolint", .largeOp '⨓' false), -- 623
  (c!"oiiint", .largeOp '∰' false), -- 624
  (c!"intlarhk", .largeOp '⨗' false), -- 625
  (c!"sqint", .largeOp '⨖' false), -- 626
  (c!"intx", .largeOp '⨘' false), -- 627
  (c!"intbar", .largeOp '⨍' false), -- 628
  (c!"intBar", .largeOp '⨎' false), -- 629
  (c!"fint", .largeOp '⨏' false), -- 630
  (c!"acute", .accent '´' false false), -- 635
  (c!"bar", .accent '‾' false false), -- 636
  (c!"overline", .accent '‾' false false), -- 636
  (c!"underbar", .under '_' false), -- 637
  (c!"underline", .under '_' false), -- 637
  (c!"breve", .accent '˘' false false), -- 638
  (c!"check", .accent 'ˇ' false false), -- 639
  (c!"dot", .accent '˙' false false), -- 640
  (c!"ddot", .accent '¨' false false), -- 641
  (c!"grave", .accent '`' false false), -- 642
  (c!"hat", .accent '^' false false), -- 643
  (c!"tilde", .accent '~' false false), -- 644
  (c!"vec", .accent '→' false false), -- 645
  (c!"mathring", .accent '˚' false false), -- 646
  (c!"overleftarrow", .accent '←' true false), -- 649
  (c!"underleftarrow", .under '←' false), -- 650
  (c!"overrightarrow", .accent '→' true false), -- 651
  (c!"Overrightarrow", .accent '⇒' true false), -- 652
  (c!"underrightarrow", .under '→' false), -- 653
  (c!"overleftrightarrow", .accent '↔' true false), -- 654
  (c!"underleftrightarrow", .under '↔' false), -- 655
  (c!"overleftharpoon", .accent '↼' true false), -- 656
  (c!"overrightharpoon", .accent '⇀' true false), -- 657
  (c!"widecheck", .accent 'ˇ' true false), -- 660
  (c!"widehat", .accent '^' true false), -- 661
  (c!"widetilde", .accent '~' true false), -- 662
  (c!"wideparen", .accent '⏜' true false), -- 663
  (c!"overparen", .accent '⏜' true false), -- 663
  (c!"overgroup", .accent '⏠' true true), -- 666
  (c!"undergroup", .under '⏡' true), -- 670
  (c!"overbrace", .accent '⏞' true true), -- 674
  (c!"underbrace", .under '⏟' true), -- 678
  (c!"underparen", .under '⏝' true), -- 682
  (c!"overbracket", .accent '⎴' true true), -- 686
  (c!"underbracket", .under '⎵' true), -- 690
  (c!"prime", .ord '′'), -- 696
  (c!"dprime", .ord '″'), -- 697
  (c!"trprime", .ord '‴'), -- 698
  (c!"qprime", .ord '⁗'), -- 699
  (c!"backprime", .ord '‵'), -- 700
  (c!"backdprime", .ord '‶'), -- 701
  (c!"backtrprime", .ord '‷'), -- 702
  (c!",", .space (some ⟨⟨3, 18⟩, .em⟩) none), -- 707
  (c!"thinspace", .space (some ⟨⟨3, 18⟩, .em⟩) none), -- 707
  (c!">", .space (some ⟨⟨4, 18⟩, .em⟩) none), -- 712
  (c!":", .space (some ⟨⟨4, 18⟩, .em⟩) none), -- 712
  (c!"medspace", .space (some ⟨⟨4, 18⟩, .em⟩) none), -- 712
  (c!";", .space (some ⟨⟨5, 18⟩, .em⟩) none), -- 717
  (c!"thickspace", .space (some ⟨⟨5, 18⟩, .em⟩) none), -- 717
  (c!"enspace", .space (some ⟨⟨5, 10⟩, .em⟩) none), -- 722
  (c!"quad", .space (some ⟨⟨1, 1⟩, .em⟩) none), -- 727
  (c!"qquad", .space (some ⟨⟨2, 1⟩, .em⟩) none), -- 732
  (c!"mathstrut", .space none (some ⟨⟨7, 10⟩, .em⟩)), -- 737
  (c!"strut", .space none (some ⟨⟨1, 1⟩, .em⟩)), -- 742
  (c!"~", .nbsp), -- 746
  (c!"nobreakspace", .nbsp), -- 746
  (c!"kern", .kern), -- 748
  (c!"hskip", .hskip), -- 756
  (c!"mkern", .mkern), -- 764
  (c!"mskip", .mskip), -- 776
  (c!"hspace", .hspace), -- 795
  (c!"Space", .space3), -- 807
  (c!"!", .space (some ⟨⟨-3, 18⟩, .em⟩) none), -- 827
  (c!"negthinspace", .space (some ⟨⟨-3, 18⟩, .em⟩) none), -- 827
  (c!"negmedspace", .space (some ⟨⟨-4, 18⟩, .em⟩) none)] -- 832

def primTable4 : List (Str × Prim) := [
  (c!"negthickspace", .space (some ⟨⟨-5, 18⟩, .em⟩) none), -- 837
  (c!"forall", .ord '∀'), -- 846
  (c!"exists", .ord '∃'), -- 847
  (c!"complement", .ord '∁'), -- 848
  (c!"nexists", .ord '∄'), -- 849
  (c!"neg", .ord '¬'), -- 850
  (c!"lnot", .ord '¬'), -- 850
  (c!"therefore", .rel '∴' false), -- 852
  (c!"because", .rel '∵' false), -- 853
  (c!"subset", .rel '⊂' false), -- 854
  (c!"supset", .rel '⊃' false), -- 855
  (c!"strictif", .rel '⥽' false), -- 856
  (c!"strictfi", .rel '⥼' false), -- 857
  (c!"mapsto", .rel '↦' false), -- 858
  (c!"implies", .rel '⟹' false), -- 859
  (c!"mid", .rel '∣' false), -- 860
  (c!"to", .rel '→' false), -- 861
  (c!"impliedby", .rel '⟸' false), -- 862
  (c!"in", .rel '∈' false), -- 863
  (c!"isin", .rel '∈' false), -- 863
  (c!"ni", .rel '∋' false), -- 864
  (c!"gets", .rel '←' false), -- 865
  (c!"iff", .rel '⟺' false), -- 866
  (c!"notni", .rel '∌' false), -- 867
  (c!"land", .bin '∧'), -- 869
  (c!"emptyset", .ord '∅'), -- 871
  (c!"varnothing", .ord '⌀'), -- 872
  (c!"ldotp", .bin '.'), -- 877
  (c!"cdotp", .bin '·'), -- 878
  (c!"cdot", .bin '⋅'), -- 879
  (c!"centerdot", .bin '·'), -- 880
  (c!"circ", .bin '∘'), -- 881
  (c!"bullet", .bin '∙'), -- 882
  (c!"circledast", .bin '⊛'), -- 883
  (c!"circledcirc", .bin '⊚'), -- 884
  (c!"circleddash", .bin '⊝'), -- 885
  (c!"bigcirc", .bin '◯'), -- 886
  (c!"leftthreetimes", .bin '⋋'), -- 887
  (c!"rhd", .bin '⊳'), -- 888
  (c!"lhd", .bin '⊲'), -- 889
  (c!"rightthreetimes", .bin '⋌'), -- 890
  (c!"rtimes", .bin '⋊'), -- 891
  (c!"ltimes", .bin '⋉'), -- 892
  (c!"leftmodels", .bin '⊨'), -- 893
  (c!"amalg", .bin '⨿'), -- 894
  (c!"ast", .bin '*'), -- 895
  (c!"asymp", .bin '≍'), -- 896
  (c!"And", .bin '&'), -- 897
  (c!"with", .bin '&'), -- 897
  (c!"lor", .bin '∨'), -- 898
  (c!"setminus", .bin '∖'), -- 899
  (c!"Cup", .bin '⋓'), -- 900
  (c!"cup", .bin '∪'), -- 901
  (c!"sqcup", .bin '⊔'), -- 902
  (c!"sqcap", .bin '⊓'), -- 903
  (c!"lessdot", .bin '⋖'), -- 904
  (c!"smallsetminus", .bin '∖'), -- 905
  (c!"barwedge", .bin '⌅'), -- 909
  (c!"curlyvee", .bin '⋎'), -- 910
  (c!"curlywedge", .bin '⋏'), -- 911
  (c!"sslash", .bin '⫽'), -- 912
  (c!"div", .bin '÷'), -- 913
  (c!"mp", .bin '∓'), -- 914
  (c!"times", .bin '×'), -- 915
  (c!"boxdot", .bin '⊡'), -- 916
  (c!"divideontimes", .bin '⋇'), -- 917
  (c!"odot", .bin '⊙'), -- 918
  (c!"unlhd", .bin '⊴'), -- 919
  (c!"boxminus", .bin '⊟'), -- 920
  (c!"dotplus", .bin '∔'), -- 921
  (c!"ominus", .bin '⊖'), -- 922
  (c!"unrhd", .bin '⊵'), -- 923
  (c!"boxplus", .bin '⊞'), -- 924
  (c!"doublebarwedge", .bin '⩞'), -- 925
  (c!"oplus", .bin '⊕'), -- 926
  (c!"uplus", .bin '⊎'), -- 927
  (c!"boxtimes", .bin '⊠'), -- 928
  (c!"doublecap", .bin '⋒'), -- 929
  (c!"otimes", .bin '⊗'), -- 930
  (c!"vee", .bin '∨'), -- 931
  (c!"veebar", .bin '⊻'), -- 932
  (c!"Cap", .bin '⋒'), -- 933
  (c!"parr", .bin '⅋'), -- 934
  (c!"wedge", .bin '∧'), -- 935
  (c!"cap", .bin '∩'), -- 936
  (c!"gtrdot", .bin '⋗'), -- 937
  (c!"pm", .bin '±'), -- 938
  (c!"intercal", .bin '⊺'), -- 939
  (c!"wr", .bin '≀'), -- 940
  (c!"circledvert", .bin '⦶'), -- 941
  (c!"blackhourglass", .bin '⧗'), -- 942
  (c!"circlehbar", .bin '⦵'), -- 943
  (c!"operp", .bin '⦹'), -- 944
  (c!"boxast", .bin '⧆'), -- 945
  (c!"boxbox", .bin '⧈'), -- 946
  (c!"oslash", .bin '⊘'), -- 947
  (c!"boxcircle", .bin '⧇'), -- 948
  (c!"diamond", .bin '⋄'), -- 949
  (c!"Otimes", .bin '⨷'), -- 950
  (c!"hourglass", .bin '⧖')] -- 951

def primTable5 : List (Str × Prim) := [
  (c!"otimeshat", .bin '⨶'), -- 952
  (c!"triangletimes", .bin '⨻'), -- 953
  (c!"lozengeminus", .bin '⟠'), -- 954
  (c!"star", .bin '⋆'), -- 955
  (c!"obar", .bin '⌽'), -- 956
  (c!"obslash", .bin '⦸'), -- 957
  (c!"triangleminus", .bin '⨺'), -- 958
  (c!"odiv", .bin '⨸'), -- 959
  (c!"triangleplus", .bin '⨹'), -- 960
  (c!"circledequal", .bin '⊜'), -- 961
  (c!"ogreaterthan", .bin '⧁'), -- 962
  (c!"circledparallel", .bin '⦷'), -- 963
  (c!"olessthan", .bin '⧀'), -- 964
  (c!"eqcirc", .rel '≖' false), -- 969
  (c!"lessgtr", .rel '≶' false), -- 970
  (c!"smile", .rel '⌣' false), -- 971
  (c!"sincoh", .rel '⌣' false), -- 971
  (c!"eqcolon", .rel '∹' false), -- 972
  (c!"minuscolon", .rel '∹' false), -- 972
  (c!"lesssim", .rel '≲' false), -- 973
  (c!"sqsubset", .rel '⊏' false), -- 974
  (c!"ll", .rel '≪' false), -- 975
  (c!"sqsubseteq", .rel '⊑' false), -- 976
  (c!"eqqcolon", .rel '≕' false), -- 977
  (c!"lll", .rel '⋘' false), -- 978
  (c!"sqsupset", .rel '⊐' false), -- 979
  (c!"llless", .rel '⋘' false), -- 980
  (c!"sqsupseteq", .rel '⊒' false), -- 981
  (c!"approx", .rel '≈' false), -- 982
  (c!"eqdef", .rel '≝' false), -- 983
  (c!"lt", .rel '<' false), -- 984
  (c!"stareq", .rel '≛' false), -- 985
  (c!"approxeq", .rel '≊' false), -- 986
  (c!"eqsim", .rel '≂' false), -- 987
  (c!"measeq", .rel '≞' false), -- 988
  (c!"Subset", .rel '⋐' false), -- 989
  (c!"arceq", .rel '≘' false), -- 990
  (c!"eqslantgtr", .rel '⪖' false), -- 991
  (c!"eqslantless", .rel '⪕' false), -- 992
  (c!"models", .rel '⊨' false), -- 993
  (c!"subseteq", .rel '⊆' false), -- 994
  (c!"backcong", .rel '≌' false), -- 995
  (c!"equiv", .rel '≡' false), -- 996
  (c!"multimap", .rel '⊸' false), -- 997
  (c!"subseteqq", .rel '⫅' false), -- 998
  (c!"fallingdotseq", .rel '≒' false), -- 999
  (c!"multimapboth", .rel '⧟' false), -- 1000
  (c!"succ", .rel '≻' false), -- 1001
  (c!"backsim", .rel '∽' false), -- 1002
  (c!"frown", .rel '⌢' false), -- 1003
  (c!"multimapinv", .rel '⟜' false), -- 1004
  (c!"succapprox", .rel '⪸' false), -- 1005
  (c!"backsimeq", .rel '⋍' false), -- 1006
  (c!"ge", .rel '≥' false), -- 1007
  (c!"origof", .rel '⊶' false), -- 1008
  (c!"succcurlyeq", .rel '≽' false), -- 1009
  (c!"between", .rel '≬' false), -- 1010
  (c!"geq", .rel '≥' false), -- 1011
  (c!"owns", .rel '∋' false), -- 1012
  (c!"succeq", .rel '⪰' false), -- 1013
  (c!"bumpeq", .rel '≏' false), -- 1014
  (c!"geqq", .rel '≧' false), -- 1015
  (c!"parallel", .rel '∥' false), -- 1016
  (c!"succsim", .rel '≿' false), -- 1017
  (c!"Bumpeq", .rel '≎' false), -- 1018
  (c!"geqslant", .rel '⩾' false), -- 1019
  (c!"perp", .rel '⟂' false), -- 1020
  (c!"Supset", .rel '⋑' false), -- 1021
  (c!"circeq", .rel '≗' false), -- 1022
  (c!"gg", .rel '≫' false), -- 1023
  (c!"Perp", .rel '⫫' false), -- 1024
  (c!"coh", .rel '⌢' false), -- 1025
  (c!"ggg", .rel '⋙' false), -- 1026
  (c!"pitchfork", .rel '⋔' false), -- 1027
  (c!"supseteq", .rel '⊇' false), -- 1028
  (c!"gggtr", .rel '⋙' false), -- 1029
  (c!"prec", .rel '≺' false), -- 1030
  (c!"supseteqq", .rel '⫆' false), -- 1031
  (c!"gt", .rel '>' false), -- 1032
  (c!"precapprox", .rel '⪷' false), -- 1033
  (c!"thickapprox", .rel '≈' false), -- 1034
  (c!"gtrapprox", .rel '⪆' false), -- 1035
  (c!"preccurlyeq", .rel '≼' false), -- 1036
  (c!"thicksim", .rel '∼' false), -- 1037
  (c!"gtreqless", .rel '⋛' false), -- 1038
  (c!"preceq", .rel '⪯' false), -- 1039
  (c!"trianglelefteq", .rel '⊴' false), -- 1040
  (c!"coloneqq", .rel '≔' false), -- 1041
  (c!"colonequals", .rel '≔' false), -- 1041
  (c!"gtreqqless", .rel '⪌' false), -- 1042
  (c!"precsim", .rel '≾' false), -- 1043
  (c!"triangleq", .rel '≜' false), -- 1044
  (c!"Coloneqq", .rel '⩴' false), -- 1045
  (c!"coloncolonequals", .rel '⩴' false), -- 1045
  (c!"gtrless", .rel '≷' false), -- 1046
  (c!"propto", .rel '∝' false), -- 1047
  (c!"trianglerighteq", .rel '⊵' false), -- 1048
  (c!"gtrsim", .rel '≳' false), -- 1049
  (c!"questeq", .rel '≟' false), -- 1050
  (c!"varpropto", .rel '∝' false)] -- 1051

def primTable6 : List (Str × Prim) := [
  (c!"imageof", .rel '⊷' false), -- 1052
  (c!"cong", .rel '≅' false), -- 1053
  (c!"risingdotseq", .rel '≓' false), -- 1054
  (c!"vartriangleleft", .rel '⊲' false), -- 1055
  (c!"curlyeqprec", .rel '⋞' false), -- 1056
  (c!"scoh", .rel '⌢' false), -- 1057
  (c!"vartriangleright", .rel '⊳' false), -- 1058
  (c!"curlyeqsucc", .rel '⋟' false), -- 1059
  (c!"le", .rel '≤' false), -- 1060
  (c!"shortmid", .rel '∣' true), -- 1061
  (c!"shortparallel", .rel '∥' true), -- 1065
  (c!"vdash", .rel '⊢' false), -- 1069
  (c!"dashv", .rel '⊣' false), -- 1070
  (c!"leq", .rel '≤' false), -- 1071
  (c!"vDash", .rel '⊨' false), -- 1072
  (c!"dblcolon", .rel '∷' false), -- 1073
  (c!"coloncolon", .rel '∷' false), -- 1073
  (c!"leqq", .rel '≦' false), -- 1074
  (c!"sim", .rel '∼' false), -- 1075
  (c!"Vdash", .rel '⊩' false), -- 1076
  (c!"doteq", .rel '≐' false), -- 1077
  (c!"leqslant", .rel '⩽' false), -- 1078
  (c!"simeq", .rel '≃' false), -- 1079
  (c!"Dash", .rel '⊫' false), -- 1080
  (c!"Doteq", .rel '≑' false), -- 1081
  (c!"lessapprox", .rel '⪅' false), -- 1082
  (c!"Vvdash", .rel '⊪' false), -- 1083
  (c!"doteqdot", .rel '≑' false), -- 1084
  (c!"lesseqgtr", .rel '⋚' false), -- 1085
  (c!"smallfrown", .rel '⌢' false), -- 1086
  (c!"veeeq", .rel '≚' false), -- 1087
  (c!"eqeq", .rel '⩵' false), -- 1088
  (c!"lesseqqgtr", .rel '⪋' false), -- 1089
  (c!"smallsmile", .rel '⌣' true), -- 1090
  (c!"wedgeq", .rel '≙' false), -- 1094
  (c!"bowtie", .rel '⋈' false), -- 1095
  (c!"Join", .rel '⋈' false), -- 1095
  (c!"gnapprox", .rel '⪊' false), -- 1097
  (c!"ngeqslant", .rel '≱' false), -- 1098
  (c!"nsubset", .rel '⊄' false), -- 1099
  (c!"nVdash", .rel '⊮' false), -- 1100
  (c!"gneq", .rel '⪈' false), -- 1101
  (c!"ngtr", .rel '≯' false), -- 1102
  (c!"nsubseteq", .rel '⊈' false), -- 1103
  (c!"precnapprox", .rel '⪹' false), -- 1104
  (c!"gneqq", .rel '≩' false), -- 1105
  (c!"nleq", .rel '≰' false), -- 1106
  (c!"nsubseteqq", .rel '⊈' false), -- 1107
  (c!"precneqq", .rel '⪵' false), -- 1108
  (c!"gnsim", .rel '⋧' false), -- 1109
  (c!"nleqq", .rel '≰' false), -- 1110
  (c!"nsucc", .rel '⊁' false), -- 1111
  (c!"precnsim", .rel '⋨' false), -- 1112
  (c!"nleqslant", .rel '≰' false), -- 1113
  (c!"nsucceq", .rel '⋡' false), -- 1114
  (c!"subsetneq", .rel '⊊' false), -- 1115
  (c!"lnapprox", .rel '⪉' false), -- 1116
  (c!"nless", .rel '≮' false), -- 1117
  (c!"nsupset", .rel '⊅' false), -- 1118
  (c!"subsetneqq", .rel '⫋' false), -- 1119
  (c!"lneq", .rel '⪇' false), -- 1120
  (c!"nmid", .rel '∤' false), -- 1121
  (c!"nsupseteq", .rel '⊉' false), -- 1122
  (c!"succnapprox", .rel '⪺' false), -- 1123
  (c!"lneqq", .rel '≨' false), -- 1124
  (c!"notin", .rel '∉' false), -- 1125
  (c!"nsupseteqq", .rel '⊉' false), -- 1126
  (c!"succneqq", .rel '⪶' false), -- 1127
  (c!"lnsim", .rel '⋦' false), -- 1128
  (c!"ntriangleleft", .rel '⋪' false), -- 1129
  (c!"succnsim", .rel '⋩' false), -- 1130
  (c!"nparallel", .rel '∦' false), -- 1131
  (c!"ntrianglelefteq", .rel '⋬' false), -- 1132
  (c!"supsetneq", .rel '⊋' false), -- 1133
  (c!"ncong", .rel '≆' false), -- 1134
  (c!"nprec", .rel '⊀' false), -- 1135
  (c!"ntriangleright", .rel '⋫' false), -- 1136
  (c!"supsetneqq", .rel '⫌' false), -- 1137
  (c!"ne", .rel '≠' false), -- 1138
  (c!"npreceq", .rel '⋠' false), -- 1139
  (c!"ntrianglerighteq", .rel '⋭' false), -- 1140
  (c!"neq", .rel '≠' false), -- 1141
  (c!"nshortmid", .rel '∤' true), -- 1142
  (c!"nvdash", .rel '⊬' false), -- 1146
  (c!"ngeq", .rel '≱' false), -- 1147
  (c!"nshortparallel", .rel '∦' true), -- 1148
  (c!"nvDash", .rel '⊭' false), -- 1152
  (c!"ngeqq", .rel '≱' false), -- 1153
  (c!"nsim", .rel '≁' false), -- 1154
  (c!"nVDash", .rel '⊯' false), -- 1155
  (c!"varsupsetneqq", .rel2 '⫌' (Char.ofNat 0xfe00)), -- 1156
  (c!"varsubsetneqq", .rel2 '⫋' (Char.ofNat 0xfe00)), -- 1157
  (c!"varsubsetneq", .rel2 '⊊' (Char.ofNat 0xfe00)), -- 1158
  (c!"varsupsetneq", .rel2 '⊋' (Char.ofNat 0xfe00)), -- 1159
  (c!"gvertneqq", .rel2 '≩' (Char.ofNat 0xfe00)), -- 1160
  (c!"lvertneqq", .rel2 '≨' (Char.ofNat 0xfe00)), -- 1161
  (c!"Eqcolon", .rel2 '−' '∷'), -- 1162
  (c!"minuscoloncolon", .rel2 '−' '∷'), -- 1162
  (c!"Eqqcolon", .rel2 '=' '∷'), -- 1163
  (c!"approxcolon", .rel2 '≈' ':')] -- 1164

def primTable7 : List (Str × Prim) := [
  (c!"colonapprox", .rel2 ':' '≈'), -- 1165
  (c!"approxcoloncolon", .rel2 '≈' '∷'), -- 1166
  (c!"Colonapprox", .rel2 '∷' '≈'), -- 1167
  (c!"coloncolonapprox", .rel2 '∷' '≈'), -- 1167
  (c!"coloneq", .rel2 ':' '−'), -- 1168
  (c!"colonminus", .rel2 ':' '−'), -- 1168
  (c!"Coloneq", .rel2 '∷' '−'), -- 1169
  (c!"coloncolonminus", .rel2 '∷' '−'), -- 1169
  (c!"colonsim", .rel2 ':' '∼'), -- 1170
  (c!"Colonsim", .rel2 '∷' '∼'), -- 1171
  (c!"coloncolonsim", .rel2 '∷' '∼'), -- 1171
  (c!"circlearrowleft", .rel '↺' false), -- 1176
  (c!"Leftrightarrow", .rel '⇔' false), -- 1177
  (c!"restriction", .rel '↾' false), -- 1178
  (c!"circlearrowright", .rel '↻' false), -- 1179
  (c!"leftrightarrows", .rel '⇆' false), -- 1180
  (c!"rightarrow", .rel '→' false), -- 1181
  (c!"curvearrowleft", .rel '↶' false), -- 1182
  (c!"leftrightharpoons", .rel '⇋' false), -- 1183
  (c!"Rightarrow", .rel '⇒' false), -- 1184
  (c!"curvearrowright", .rel '↷' false), -- 1185
  (c!"leftrightsquigarrow", .rel '↭' false), -- 1186
  (c!"rightarrowtail", .rel '↣' false), -- 1187
  (c!"dashleftarrow", .rel '⇠' false), -- 1188
  (c!"Lleftarrow", .rel '⇚' false), -- 1189
  (c!"rightharpoondown", .rel '⇁' false), -- 1190
  (c!"dashrightarrow", .rel '⇢' false), -- 1191
  (c!"longleftarrow", .rel '⟵' false), -- 1192
  (c!"rightharpoonup", .rel '⇀' false), -- 1193
  (c!"downarrow", .rel '↓' false), -- 1194
  (c!"Longleftarrow", .rel '⟸' false), -- 1195
  (c!"rightleftarrows", .rel '⇄' false), -- 1196
  (c!"Downarrow", .rel '⇓' false), -- 1197
  (c!"longleftrightarrow", .rel '⟷' false), -- 1198
  (c!"rightleftharpoons", .rel '⇌' false), -- 1199
  (c!"downdownarrows", .rel '⇊' false), -- 1200
  (c!"Longleftrightarrow", .rel '⟺' false), -- 1201
  (c!"rightrightarrows", .rel '⇉' false), -- 1202
  (c!"downharpoonleft", .rel '⇃' false), -- 1203
  (c!"longmapsto", .rel '⟼' false), -- 1204
  (c!"rightsquigarrow", .rel '⇝' false), -- 1205
  (c!"downharpoonright", .rel '⇂' false), -- 1206
  (c!"longrightarrow", .rel '⟶' false), -- 1207
  (c!"Rrightarrow", .rel '⇛' false), -- 1208
  (c!"Longrightarrow", .rel '⟹' false), -- 1209
  (c!"Rsh", .rel '↱' false), -- 1210
  (c!"hookleftarrow", .rel '↩' false), -- 1211
  (c!"looparrowleft", .rel '↫' false), -- 1212
  (c!"searrow", .rel '↘' false), -- 1213
  (c!"hookrightarrow", .rel '↪' false), -- 1214
  (c!"looparrowright", .rel '↬' false), -- 1215
  (c!"swarrow", .rel '↙' false), -- 1216
  (c!"Lsh", .rel '↰' false), -- 1217
  (c!"mapsfrom", .rel '↤' false), -- 1218
  (c!"twoheadleftarrow", .rel '↞' false), -- 1219
  (c!"twoheadrightarrow", .rel '↠' false), -- 1220
  (c!"leadsto", .rel '⇝' false), -- 1221
  (c!"nearrow", .rel '↗' false), -- 1222
  (c!"uparrow", .rel '↑' false), -- 1223
  (c!"leftarrow", .rel '←' false), -- 1224
  (c!"nleftarrow", .rel '↚' false), -- 1225
  (c!"Uparrow", .rel '⇑' false), -- 1226
  (c!"Leftarrow", .rel '⇐' false), -- 1227
  (c!"nLeftarrow", .rel '⇍' false), -- 1228
  (c!"updownarrow", .rel '↕' false), -- 1229
  (c!"leftarrowtail", .rel '↢' false), -- 1230
  (c!"nleftrightarrow", .rel '↮' false), -- 1231
  (c!"Updownarrow", .rel '⇕' false), -- 1232
  (c!"leftharpoondown", .rel '↽' false), -- 1233
  (c!"nLeftrightarrow", .rel '⇎' false), -- 1234
  (c!"upharpoonleft", .rel '↿' false), -- 1235
  (c!"leftharpoonup", .rel '↼' false), -- 1236
  (c!"nrightarrow", .rel '↛' false), -- 1237
  (c!"upharpoonright", .rel '↾' false), -- 1238
  (c!"leftleftarrows", .rel '⇇' false), -- 1239
  (c!"nRightarrow", .rel '⇏' false), -- 1240
  (c!"upuparrows", .rel '⇈' false), -- 1241
  (c!"leftrightarrow", .rel '↔' false), -- 1242
  (c!"nwarrow", .rel '↖' false), -- 1243
  (c!"xleftarrow", .xarrow '←'), -- 1244
  (c!"xrightarrow", .xarrow '→'), -- 1264
  (c!"frac", .frac none none none none), -- 1288
  (c!"genfrac", .genfrac), -- 1292
  (c!"cfrac", .frac none none none (some .display)), -- 1363
  (c!"dfrac", .frac none none none (some .display)), -- 1363
  (c!"tfrac", .frac none none none (some .text)), -- 1367
  (c!"binom", .frac (some '(') (some ')') (some ⟨⟨0, 1⟩, .em⟩) none), -- 1371
  (c!"dbinom", .frac (some '(') (some ')') (some ⟨⟨0, 1⟩, .em⟩) (some .display)), -- 1380
  (c!"tbinom", .frac (some '(') (some ')') (some ⟨⟨0, 1⟩, .em⟩) (some .text)), -- 1389
  (c!"overset", .overset .sup), -- 1398
  (c!"stackrel", .overset .sup), -- 1398
  (c!"underset", .overset .sub), -- 1412
  (c!"buildrel", .buildrel), -- 1426
  (c!"substack", .substack), -- 1441
  (c!"sideset", .sideset), -- 1453
  (c!"sqrt", .sqrt), -- 1464
  (c!"surd", .surd), -- 1480
  (c!"backslash", .ord '\\'), -- 1492
  (c!"#", .ord '#'), -- 1497
  (c!"%", .ord '%')] -- 1497

def primTable8 : List (Str × Prim) := [
  (c!"&", .ord '&'), -- 1497
  (c!"$", .ord '$'), -- 1497
  (c!"_", .ord '_'), -- 1497
  (c!"|", .ord '∥'), -- 1503
  (c!"text", .text none), -- 1504
  (c!"textrm", .text (some .upRight)), -- 1507
  (c!"textbf", .text (some .bold)), -- 1508
  (c!"textit", .text (some .italic)), -- 1509
  (c!"textsf", .text (some .sansSerif)), -- 1510
  (c!"texttt", .text (some .monospace)), -- 1511
  (c!"not", .not_), -- 1513
  (c!"cancel", .not_), -- 1513
  (c!"char", .char), -- 1519
  (c!"relax", .relax), -- 1530
  (c!"begingroup", .begingroup), -- 1538
  (c!"endgroup", .unbalanced), -- 1550
  (c!"begin", .begin_), -- 1552
  (c!"end", .unbalanced), -- 1901
  (c!"\\", .newline), -- 1920
  (c!"cr", .newline), -- 1920
  (c!"def", .def_), -- 1936
  (c!"let", .let_), -- 1943
  (c!"futurelet", .futurelet), -- 1949
  (c!"newcommand", .newcommand (some false)), -- 1957
  (c!"renewcommand", .newcommand (some true)), -- 1958
  (c!"providecommand", .newcommand none)] -- 1959

/-- All literal arms. -/
def primTable : List (Str × Prim) :=
  primTable0 ++ primTable1 ++ primTable2 ++ primTable3 ++ primTable4 ++ primTable5 ++ primTable6 ++ primTable7 ++ primTable8

end PL
