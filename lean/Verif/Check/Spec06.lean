import Verif.Model.Html
/-
Tests of the model: examples 326 to 390 of /repo/spec.txt, generated by tools/gen_examples.py.
-/
namespace CM

/-- example 326 -/
example : (toHtml false {} ("&#9;foo\n".toList)).toOption = some ("<p>\tfoo</p>\n".toList) := by decide +kernel
/-- example 327 -/
example : (toHtml false {} ("[a](url &quot;tit&quot;)\n".toList)).toOption = some ("<p>[a](url &quot;tit&quot;)</p>\n".toList) := by decide +kernel
/-- example 328 -/
example : (toHtml false {} ("`foo`\n".toList)).toOption = some ("<p><code>foo</code></p>\n".toList) := by decide +kernel
/-- example 329 -/
example : (toHtml false {} ("`` foo ` bar ``\n".toList)).toOption = some ("<p><code>foo ` bar</code></p>\n".toList) := by decide +kernel
/-- example 330 -/
example : (toHtml false {} ("` `` `\n".toList)).toOption = some ("<p><code>``</code></p>\n".toList) := by decide +kernel
/-- example 331 -/
example : (toHtml false {} ("`  ``  `\n".toList)).toOption = some ("<p><code> `` </code></p>\n".toList) := by decide +kernel
/-- example 332 -/
example : (toHtml false {} ("` a`\n".toList)).toOption = some ("<p><code> a</code></p>\n".toList) := by decide +kernel
/-- example 333 -/
example : (toHtml false {} ("` b `\n".toList)).toOption = some ("<p><code> b </code></p>\n".toList) := by decide +kernel
/-- example 334 -/
example : (toHtml false {} ("` `\n`  `\n".toList)).toOption = some ("<p><code> </code>\n<code>  </code></p>\n".toList) := by decide +kernel
/-- example 335 -/
example : (toHtml false {} ("``\nfoo\nbar  \nbaz\n``\n".toList)).toOption = some ("<p><code>foo bar   baz</code></p>\n".toList) := by decide +kernel
/-- example 336 -/
example : (toHtml false {} ("``\nfoo \n``\n".toList)).toOption = some ("<p><code>foo </code></p>\n".toList) := by decide +kernel
/-- example 337 -/
example : (toHtml false {} ("`foo   bar \nbaz`\n".toList)).toOption = some ("<p><code>foo   bar  baz</code></p>\n".toList) := by decide +kernel
/-- example 338 -/
example : (toHtml false {} ("`foo\\`bar`\n".toList)).toOption = some ("<p><code>foo\\</code>bar`</p>\n".toList) := by decide +kernel
/-- example 339 -/
example : (toHtml false {} ("``foo`bar``\n".toList)).toOption = some ("<p><code>foo`bar</code></p>\n".toList) := by decide +kernel
/-- example 340 -/
example : (toHtml false {} ("` foo `` bar `\n".toList)).toOption = some ("<p><code>foo `` bar</code></p>\n".toList) := by decide +kernel
/-- example 341 -/
example : (toHtml false {} ("*foo`*`\n".toList)).toOption = some ("<p>*foo<code>*</code></p>\n".toList) := by decide +kernel
/-- example 342 -/
example : (toHtml false {} ("[not a `link](/foo`)\n".toList)).toOption = some ("<p>[not a <code>link](/foo</code>)</p>\n".toList) := by decide +kernel
/-- example 343 -/
example : (toHtml false {} ("`<a href=\"`\">`\n".toList)).toOption = some ("<p><code>&lt;a href=&quot;</code>&quot;&gt;`</p>\n".toList) := by decide +kernel
/-- example 344 -/
example : (toHtml false {} ("<a href=\"`\">`\n".toList)).toOption = some ("<p><a href=\"`\">`</p>\n".toList) := by decide +kernel
/-- example 345 -/
example : (toHtml false {} ("`<http://foo.bar.`baz>`\n".toList)).toOption = some ("<p><code>&lt;http://foo.bar.</code>baz&gt;`</p>\n".toList) := by decide +kernel
/-- example 346 -/
example : (toHtml false {} ("<http://foo.bar.`baz>`\n".toList)).toOption = some ("<p><a href=\"http://foo.bar.%60baz\">http://foo.bar.`baz</a>`<".toList ++ "/p>\n".toList) := by decide +kernel
/-- example 347 -/
example : (toHtml false {} ("```foo``\n".toList)).toOption = some ("<p>```foo``</p>\n".toList) := by decide +kernel
/-- example 348 -/
example : (toHtml false {} ("`foo\n".toList)).toOption = some ("<p>`foo</p>\n".toList) := by decide +kernel
/-- example 349 -/
example : (toHtml false {} ("`foo``bar``\n".toList)).toOption = some ("<p>`foo<code>bar</code></p>\n".toList) := by decide +kernel
/-- example 350 -/
example : (toHtml false {} ("*foo bar*\n".toList)).toOption = some ("<p><em>foo bar</em></p>\n".toList) := by decide +kernel
/-- example 351 -/
example : (toHtml false {} ("a * foo bar*\n".toList)).toOption = some ("<p>a * foo bar*</p>\n".toList) := by decide +kernel
/-- example 352 -/
example : (toHtml false {} ("a*\"foo\"*\n".toList)).toOption = some ("<p>a*&quot;foo&quot;*</p>\n".toList) := by decide +kernel
/-- example 353 -/
example : (toHtml false {} ("* a *\n".toList)).toOption = some ("<p>* a *</p>\n".toList) := by decide +kernel
/-- example 354 -/
example : (toHtml false {} ("foo*bar*\n".toList)).toOption = some ("<p>foo<em>bar</em></p>\n".toList) := by decide +kernel
/-- example 355 -/
example : (toHtml false {} ("5*6*78\n".toList)).toOption = some ("<p>5<em>6</em>78</p>\n".toList) := by decide +kernel
/-- example 356 -/
example : (toHtml false {} ("_foo bar_\n".toList)).toOption = some ("<p><em>foo bar</em></p>\n".toList) := by decide +kernel
/-- example 357 -/
example : (toHtml false {} ("_ foo bar_\n".toList)).toOption = some ("<p>_ foo bar_</p>\n".toList) := by decide +kernel
/-- example 358 -/
example : (toHtml false {} ("a_\"foo\"_\n".toList)).toOption = some ("<p>a_&quot;foo&quot;_</p>\n".toList) := by decide +kernel
/-- example 359 -/
example : (toHtml false {} ("foo_bar_\n".toList)).toOption = some ("<p>foo_bar_</p>\n".toList) := by decide +kernel
/-- example 360 -/
example : (toHtml false {} ("5_6_78\n".toList)).toOption = some ("<p>5_6_78</p>\n".toList) := by decide +kernel
/-- example 361 -/
example : (toHtml false {} ("пристаням_стремятся_\n".toList)).toOption = some ("<p>пристаням_стремятся_</p>\n".toList) := by decide +kernel
/-- example 362 -/
example : (toHtml false {} ("aa_\"bb\"_cc\n".toList)).toOption = some ("<p>aa_&quot;bb&quot;_cc</p>\n".toList) := by decide +kernel
/-- example 363 -/
example : (toHtml false {} ("foo-_(bar)_\n".toList)).toOption = some ("<p>foo-<em>(bar)</em></p>\n".toList) := by decide +kernel
/-- example 364 -/
example : (toHtml false {} ("_foo*\n".toList)).toOption = some ("<p>_foo*</p>\n".toList) := by decide +kernel
/-- example 365 -/
example : (toHtml false {} ("*foo bar *\n".toList)).toOption = some ("<p>*foo bar *</p>\n".toList) := by decide +kernel
/-- example 366 -/
example : (toHtml false {} ("*foo bar\n*\n".toList)).toOption = some ("<p>*foo bar\n*</p>\n".toList) := by decide +kernel
/-- example 367 -/
example : (toHtml false {} ("*(*foo)\n".toList)).toOption = some ("<p>*(*foo)</p>\n".toList) := by decide +kernel
/-- example 368 -/
example : (toHtml false {} ("*(*foo*)*\n".toList)).toOption = some ("<p><em>(<em>foo</em>)</em></p>\n".toList) := by decide +kernel
/-- example 369 -/
example : (toHtml false {} ("*foo*bar\n".toList)).toOption = some ("<p><em>foo</em>bar</p>\n".toList) := by decide +kernel
/-- example 370 -/
example : (toHtml false {} ("_foo bar _\n".toList)).toOption = some ("<p>_foo bar _</p>\n".toList) := by decide +kernel
/-- example 371 -/
example : (toHtml false {} ("_(_foo)\n".toList)).toOption = some ("<p>_(_foo)</p>\n".toList) := by decide +kernel
/-- example 372 -/
example : (toHtml false {} ("_(_foo_)_\n".toList)).toOption = some ("<p><em>(<em>foo</em>)</em></p>\n".toList) := by decide +kernel
/-- example 373 -/
example : (toHtml false {} ("_foo_bar\n".toList)).toOption = some ("<p>_foo_bar</p>\n".toList) := by decide +kernel
/-- example 374 -/
example : (toHtml false {} ("_пристаням_стремятся\n".toList)).toOption = some ("<p>_пристаням_стремятся</p>\n".toList) := by decide +kernel
/-- example 375 -/
example : (toHtml false {} ("_foo_bar_baz_\n".toList)).toOption = some ("<p><em>foo_bar_baz</em></p>\n".toList) := by decide +kernel
/-- example 376 -/
example : (toHtml false {} ("_(bar)_.\n".toList)).toOption = some ("<p><em>(bar)</em>.</p>\n".toList) := by decide +kernel
/-- example 377 -/
example : (toHtml false {} ("**foo bar**\n".toList)).toOption = some ("<p><strong>foo bar</strong></p>\n".toList) := by decide +kernel
/-- example 378 -/
example : (toHtml false {} ("** foo bar**\n".toList)).toOption = some ("<p>** foo bar**</p>\n".toList) := by decide +kernel
/-- example 379 -/
example : (toHtml false {} ("a**\"foo\"**\n".toList)).toOption = some ("<p>a**&quot;foo&quot;**</p>\n".toList) := by decide +kernel
/-- example 380 -/
example : (toHtml false {} ("foo**bar**\n".toList)).toOption = some ("<p>foo<strong>bar</strong></p>\n".toList) := by decide +kernel
/-- example 381 -/
example : (toHtml false {} ("__foo bar__\n".toList)).toOption = some ("<p><strong>foo bar</strong></p>\n".toList) := by decide +kernel
/-- example 382 -/
example : (toHtml false {} ("__ foo bar__\n".toList)).toOption = some ("<p>__ foo bar__</p>\n".toList) := by decide +kernel
/-- example 383 -/
example : (toHtml false {} ("__\nfoo bar__\n".toList)).toOption = some ("<p>__\nfoo bar__</p>\n".toList) := by decide +kernel
/-- example 384 -/
example : (toHtml false {} ("a__\"foo\"__\n".toList)).toOption = some ("<p>a__&quot;foo&quot;__</p>\n".toList) := by decide +kernel
/-- example 385 -/
example : (toHtml false {} ("foo__bar__\n".toList)).toOption = some ("<p>foo__bar__</p>\n".toList) := by decide +kernel
/-- example 386 -/
example : (toHtml false {} ("5__6__78\n".toList)).toOption = some ("<p>5__6__78</p>\n".toList) := by decide +kernel
/-- example 387 -/
example : (toHtml false {} ("пристаням__стремятся__\n".toList)).toOption = some ("<p>пристаням__стремятся__</p>\n".toList) := by decide +kernel
/-- example 388 -/
example : (toHtml false {} ("__foo, __bar__, baz__\n".toList)).toOption = some ("<p><strong>foo, <strong>bar</strong>, baz</strong></p>\n".toList) := by decide +kernel
/-- example 389 -/
example : (toHtml false {} ("foo-__(bar)__\n".toList)).toOption = some ("<p>foo-<strong>(bar)</strong></p>\n".toList) := by decide +kernel
/-- example 390 -/
example : (toHtml false {} ("**foo bar **\n".toList)).toOption = some ("<p>**foo bar **</p>\n".toList) := by decide +kernel

end CM
