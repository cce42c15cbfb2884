"""Rewrite the generated tail of /verif/DESIGN.md: where the code and a property disagree, from the comments of the theorems."""
import glob, os, re
root = os.path.join(os.path.dirname(os.path.abspath(__file__)), '..')
rows = []
ALSO = set('C13_copy_of_empty_ub C13_self_reference_ub C28_singular_criteria_differ C38_small_threshold C52_gwss_rows_unchecked '
           'C52_missing_distance_accepted C52_no_weight_ub C52_unusable_bandwidth_accepted C57_parallel_selects_unusable C65_fit_fails '
           'C65_initial_fixed_kernel_fails C74_equal_ends_stop C76_adaptive_uses_future C77_prediction_ignores_location '
           'C78_search_range_is_sentinel C89_infinite C91_parallel_value'.split())
NOT = set('C01_fixed_total C19_failure_returns_candidates C35_returns C54_aic C57_selected_bandwidth_fits C59_average_parallel'.split())
for f in glob.glob(os.path.join(root, 'lean/Verif/Props/*.lean')):
    s = open(f).read()
    for m in re.finditer(r'/--((?:(?!-/).)*)-/\s*\ntheorem (C\d\d+_\w+)', s, re.S):
        d = ' '.join(m.group(1).split())
        if m.group(2) in NOT: continue
        if m.group(2) in ALSO or re.search(r'\bfails?\b|refuted|violated|disagreement|failure\)|undefined', d.split('. ')[0] + d[:60]) and not re.search(r'exactly if|protocol|after a failed', d[:250]):
            rows.append((m.group(2), re.sub(r'\*\*', '', d)))
rows.sort()
p = os.path.join(root, 'DESIGN.md')
s = open(p).read()
s = s[:s.index('<!-- generated -->')] + '<!-- generated -->\n\n## Where the code and a property disagree\n\nEach line is a theorem about the model. ' \
    'The property then has a `_partial` theorem or a theorem with the condition under which it holds.\n\n' + ''.join(f'* `{n}` — {d}\n' for n, d in rows)
open(p, 'w').write(s)
print(len(rows))
